import Mathlib.Probability.ProductMeasure
import Mathlib.Probability.Independence.InfinitePi
import Mathlib.MeasureTheory.Measure.Prod

/-!
# Walks driven by independent draws

A walk on a space of states moves by `step u k` with an independent draw `u` at every event and may exit there.  If from every state of
a compact set an exit is possible (with positive probability, in a bounded number of events, from all states nearby), the probability of
no exit decays exponentially, uniformly in the first state.  Nothing here models code.
-/

namespace Verif.Props

set_option linter.unusedSectionVars false
open MeasureTheory ProbabilityTheory Filter Topology

section Walk
variable {X K : Type} [MeasurableSpace X] [MeasurableSpace K]

/-- put one draw in front of a stream of draws -/
def inFront (p : X × (ℕ → X)) : ℕ → X
  | 0 => p.1
  | n + 1 => p.2 n

theorem inFront_measurable : Measurable (inFront (X := X)) := by
  refine measurable_pi_lambda _ fun n => ?_
  cases n with
  | zero => exact measurable_fst
  | succ n => exact (measurable_pi_apply n).comp measurable_snd

variable (μ : Measure X) [IsProbabilityMeasure μ]

/-- a stream of independent draws is one draw followed by a stream of independent draws -/
theorem inFront_law : (μ.prod (Measure.infinitePi fun _ : ℕ => μ)).map inFront = Measure.infinitePi fun _ : ℕ => μ := by
  refine Measure.eq_infinitePi _ fun s t ht => ?_
  rw [Measure.map_apply inFront_measurable (.pi s.countable_toSet fun i _ => ht i)]
  classical
  have e : inFront ⁻¹' (Set.pi (s : Set ℕ) t) = (if 0 ∈ s then t 0 else Set.univ) ×ˢ
      (Set.pi ((s.erase 0).image Nat.pred : Finset ℕ) fun i => t (i + 1)) := by
    ext ⟨x, y⟩
    simp only [Set.mem_preimage, Set.mem_pi, Finset.mem_coe, Set.mem_prod, Finset.mem_image, Finset.mem_erase]
    constructor
    · intro h
      refine ⟨?_, ?_⟩
      · split_ifs with h0
        · exact h 0 h0
        · trivial
      · rintro i ⟨a, ⟨ha0, has⟩, rfl⟩
        obtain ⟨b, rfl⟩ := Nat.exists_eq_succ_of_ne_zero ha0
        exact h _ has
    · rintro ⟨h0, h1⟩ i hi
      cases i with
      | zero => rw [if_pos hi] at h0; exact h0
      | succ i => exact h1 i ⟨i + 1, ⟨by omega, hi⟩, rfl⟩
  rw [e, Measure.prod_prod, Measure.infinitePi_pi _ fun i _ => ht _, Finset.prod_image]
  · have : ∏ x ∈ s.erase 0, μ (t (x.pred + 1)) = ∏ x ∈ s.erase 0, μ (t x) := by
      refine Finset.prod_congr rfl fun x hx => ?_
      obtain ⟨b, rfl⟩ := Nat.exists_eq_succ_of_ne_zero (Finset.ne_of_mem_erase hx)
      rfl
    rw [this]
    by_cases h0 : 0 ∈ s
    · rw [if_pos h0, Finset.mul_prod_erase s (fun i => μ (t i)) h0]
    · rw [if_neg h0, measure_univ, one_mul, Finset.erase_eq_of_notMem h0]
  · intro a ha b hb hab
    have := Finset.ne_of_mem_erase ha
    have := Finset.ne_of_mem_erase hb
    simp only [Nat.pred_eq_sub_one] at hab
    omega

/-- what is known of the stream after the first draw is known of the whole stream -/
theorem stream_split {A : Set (ℕ → X)} (hA : MeasurableSet A) :
    (Measure.infinitePi fun _ : ℕ => μ) A =
      ∫⁻ u, (Measure.infinitePi fun _ : ℕ => μ) {y | inFront (u, y) ∈ A} ∂μ := by
  conv_lhs => rw [← inFront_law μ]
  rw [Measure.map_apply inFront_measurable hA, Measure.prod_apply (inFront_measurable hA)]
  rfl

variable (step : X → K → K) (ex : K → X → Prop)

/-- no exit at the first `N` draws of the stream `y`, for a walk that starts at `k` -/
def noExit : ℕ → K → (ℕ → X) → Prop
  | 0, _, _ => True
  | N + 1, k, y => ¬ ex k (y 0) ∧ noExit N (step (y 0) k) fun n => y (n + 1)

variable {step ex}

theorem noExit_measurable (hs : Measurable fun p : X × K => step p.1 p.2) (he : MeasurableSet {p : K × X | ex p.1 p.2}) (N : ℕ) :
    MeasurableSet {p : K × (ℕ → X) | noExit step ex N p.1 p.2} := by
  induction N with
  | zero => simp [noExit]
  | succ N ih =>
    simp only [noExit]
    refine MeasurableSet.inter ?_ ?_
    · exact (he.preimage (measurable_fst.prodMk ((measurable_pi_apply 0).comp measurable_snd))).compl
    · refine ih.preimage (f := fun p : K × (ℕ → X) => (step (p.2 0) p.1, fun n => p.2 (n + 1))) ?_
      refine Measurable.prodMk ?_ ?_
      · have h2 : Measurable fun p : K × (ℕ → X) => (p.2 0, p.1) := ((measurable_pi_apply 0).comp measurable_snd).prodMk measurable_fst
        exact hs.comp h2
      · exact measurable_pi_lambda _ fun n => (measurable_pi_apply (n + 1)).comp measurable_snd

/-- probability of no exit at the first `N` draws -/
noncomputable def trapped (step : X → K → K) (ex : K → X → Prop) (N : ℕ) (k : K) : ENNReal :=
  (Measure.infinitePi fun _ : ℕ => μ) {y | noExit step ex N k y}

variable (hs : Measurable fun p : X × K => step p.1 p.2) (he : MeasurableSet {p : K × X | ex p.1 p.2})
include hs he

theorem noExit_meas1 (N : ℕ) (k : K) : MeasurableSet {y : ℕ → X | noExit step ex N k y} :=
  (noExit_measurable hs he N).preimage (measurable_const.prodMk measurable_id)

theorem trapped_zero (k : K) : trapped μ step ex 0 k = 1 := by
  simp [trapped, noExit]

theorem trapped_le_one (N : ℕ) (k : K) : trapped μ step ex N k ≤ 1 := prob_le_one

open Classical in
theorem trapped_succ (N : ℕ) (k : K) :
    trapped μ step ex (N + 1) k = ∫⁻ u, (if ex k u then 0 else trapped μ step ex N (step u k)) ∂μ := by
  rw [trapped, stream_split μ (noExit_meas1 hs he (N + 1) k)]
  refine lintegral_congr fun u => ?_
  split_ifs with h
  · have : {y : ℕ → X | inFront (u, y) ∈ {y | noExit step ex (N + 1) k y}} = ∅ := by
      ext y; simp [noExit, inFront, h]
    rw [this, measure_empty]
  · rw [trapped]
    congr 1
    ext y; simp [noExit, inFront, h]

theorem trapped_anti (N : ℕ) (k : K) : trapped μ step ex (N + 1) k ≤ trapped μ step ex N k := by
  induction N generalizing k with
  | zero => rw [trapped_zero μ hs he]; exact prob_le_one
  | succ N ih =>
    rw [trapped_succ μ hs he, trapped_succ μ hs he]
    refine lintegral_mono fun u => ?_
    dsimp only
    split_ifs
    · exact le_rfl
    · exact ih _

theorem trapped_antitone (k : K) : Antitone fun N => trapped μ step ex N k :=
  antitone_nat_of_succ_le fun N => trapped_anti μ hs he N k

/-- walks on a set `B`: what holds after `N` draws from everywhere can be used after the first `M` draws -/
theorem trapped_add {B : Set K} (hB : ∀ u, ∀ k ∈ B, step u k ∈ B) {N : ℕ} {c : ENNReal} (hc : c ≠ ⊤)
    (h : ∀ k ∈ B, trapped μ step ex N k ≤ c) (M : ℕ) : ∀ k ∈ B, trapped μ step ex (M + N) k ≤ c * trapped μ step ex M k := by
  classical
  induction M with
  | zero => intro k hk; rw [trapped_zero μ hs he, mul_one, zero_add]; exact h k hk
  | succ M ih =>
    intro k hk
    rw [show M + 1 + N = (M + N) + 1 by ring, trapped_succ μ hs he, trapped_succ μ hs he, ← lintegral_const_mul' _ _ hc]
    refine lintegral_mono fun u => ?_
    dsimp only
    split_ifs
    · simp
    · exact ih _ (hB u k hk)

theorem trapped_pow {B : Set K} (hB : ∀ u, ∀ k ∈ B, step u k ∈ B) {M : ℕ} {c : ENNReal} (hc : c ≠ ⊤)
    (h : ∀ k ∈ B, trapped μ step ex M k ≤ c) (q : ℕ) : ∀ k ∈ B, trapped μ step ex (q * M) k ≤ c ^ q := by
  induction q with
  | zero => intro k _; simp only [zero_mul, pow_zero]; exact prob_le_one
  | succ q ih =>
    intro k hk
    rw [add_mul, one_mul, pow_succ]
    refine (trapped_add μ hs he hB hc h (q * M) k hk).trans ?_
    rw [mul_comm]
    exact mul_le_mul_left (ih k hk) _

/-- escape is possible from a neighbourhood of `k0` -/
def Esc (μ : Measure X) (step : X → K → K) (ex : K → X → Prop) [TopologicalSpace K] (k0 : K) : Prop :=
  ∃ (m : ℕ) (δ : ENNReal), δ ≠ 0 ∧ ∀ᶠ k in 𝓝 k0, trapped μ step ex m k + δ ≤ 1

omit hs he in
theorem measurableSet_ex (he : MeasurableSet {p : K × X | ex p.1 p.2}) (k : K) : MeasurableSet {u | ex k u} :=
  he.preimage (measurable_const.prodMk measurable_id)

theorem esc_now [TopologicalSpace K] {k0 : K} {G : Set X} (hG : MeasurableSet G) (h0 : μ G ≠ 0)
    (h : ∀ᶠ k in 𝓝 k0, ∀ u ∈ G, ex k u) : Esc μ step ex k0 := by
  classical
  refine ⟨1, μ G, h0, h.mono fun k hk => ?_⟩
  rw [trapped_succ μ hs he, ← lintegral_indicator_one hG, ← lintegral_add_right _ (measurable_one.indicator hG)]
  calc _ ≤ ∫⁻ _, 1 ∂μ := lintegral_mono fun u => ?_
    _ = 1 := by simp
  dsimp only
  by_cases hu : u ∈ G
  · rw [if_pos (hk u hu)]; simp [hu]
  · rw [trapped_zero μ hs he]
    split_ifs <;> simp [hu]

theorem esc_step [TopologicalSpace K] {k0 k1 : K}
    (h1 : Esc μ step ex k1) (h : ∀ W ∈ 𝓝 k1, ∃ G, MeasurableSet G ∧ μ G ≠ 0 ∧ ∀ᶠ k in 𝓝 k0, ∀ u ∈ G, step u k ∈ W) :
    Esc μ step ex k0 := by
  classical
  obtain ⟨m, δ, hδ, hW⟩ := h1
  obtain ⟨G, hG, hG0, hk⟩ := h _ hW
  refine ⟨m + 1, δ * μ G, mul_ne_zero hδ hG0, hk.mono fun k hk => ?_⟩
  rw [trapped_succ μ hs he, ← lintegral_indicator_const hG, ← lintegral_add_right _ (measurable_const.indicator hG)]
  calc _ ≤ ∫⁻ _, 1 ∂μ := lintegral_mono fun u => ?_
    _ = 1 := by simp
  dsimp only
  by_cases hu : u ∈ G
  · have := hk u hu
    simp only [hu, Set.indicator_of_mem]
    split_ifs
    · exact le_trans (by gcongr; exact bot_le) this
    · exact this
  · simp only [hu, not_false_eq_true, Set.indicator_of_notMem, add_zero]
    split_ifs
    · exact bot_le
    · exact prob_le_one

/-- on a compact set, escape is possible uniformly -/
theorem esc_uniform [TopologicalSpace K] {B : Set K} (hB : IsCompact B) (h : ∀ k ∈ B, Esc μ step ex k) :
    ∃ (M : ℕ) (c : ENNReal), c < 1 ∧ ∀ k ∈ B, trapped μ step ex M k ≤ c := by
  have key : ∃ (M : ℕ) (δ : ENNReal), δ ≠ 0 ∧ ∀ k ∈ B, trapped μ step ex M k + δ ≤ 1 := by
    refine hB.induction_on (p := fun s => ∃ (M : ℕ) (δ : ENNReal), δ ≠ 0 ∧ ∀ k ∈ s, trapped μ step ex M k + δ ≤ 1) ?_ ?_ ?_ ?_
    · exact ⟨0, 1, one_ne_zero, fun k hk => hk.elim⟩
    · rintro s t hst ⟨M, δ, h0, h⟩
      exact ⟨M, δ, h0, fun k hk => h k (hst hk)⟩
    · rintro s t ⟨M, δ, h0, h⟩ ⟨M', δ', h0', h'⟩
      refine ⟨max M M', min δ δ', ?_, ?_⟩
      · rcases min_choice δ δ' with e | e <;> rw [e] <;> assumption
      · rintro k (hk | hk)
        · exact (add_le_add (trapped_antitone μ hs he k (le_max_left _ _)) (min_le_left _ _)).trans (h k hk)
        · exact (add_le_add (trapped_antitone μ hs he k (le_max_right _ _)) (min_le_right _ _)).trans (h' k hk)
    · intro k hk
      obtain ⟨m, δ, h0, hW⟩ := h k hk
      exact ⟨_, mem_nhdsWithin_of_mem_nhds hW, m, δ, h0, fun k hk => hk⟩
  obtain ⟨M, δ, h0, h⟩ := key
  exact ⟨M, 1 - δ, ENNReal.sub_lt_self ENNReal.one_ne_top one_ne_zero h0, fun k hk => ENNReal.le_sub_of_add_le_right (by
    intro e; have := h k hk; rw [e] at this; simp at this) (h k hk)⟩

end Walk

end Verif.Props
