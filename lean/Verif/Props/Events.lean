import Verif.Model.Events
import Verif.Props.Sampling
import Verif.Props.Exits
import Verif.Lemmas.Exits
import Mathlib.Algebra.BigOperators.Intervals
import Mathlib.Algebra.BigOperators.Field

/-!
# C43–C48: event distributions
-/

namespace Verif.Props
open Verif.Events Verif.Spec Verif.XF
open Verif (XF PyErr)

variable {nt : ℕ}

/-! ### C43 -/

/-- the sum of `a` over the trajectories whose event number is `ev` (specification) -/
def lightAt {α : Type} [AddCommMonoid α] (a : Fin nt → α) (idx : Fin nt → ℕ) (ev : ℕ) : α :=
  ∑ j, if idx j = ev then a j else 0

theorem sumAt_eq {α : Type} [AddCommMonoid α] (a : Fin nt → α) (idx : Fin nt → ℕ) (ev : ℕ) :
    sumAt a idx ev = lightAt a idx ev := by
  unfold sumAt lightAt; rw [Finset.sum_filter]

theorem addAt_self {α : Type} [Add α] (s : ℕ → α) (i : ℕ) (x : α) : addAt s i x i = s i + x := Function.update_self _ _ _
theorem addAt_ne {α : Type} [Add α] (s : ℕ → α) {i k : ℕ} (x : α) (h : k ≠ i) : addAt s i x k = s k :=
  Function.update_of_ne h _ _

theorem foldl_addAt {α : Type} [AddCommMonoid α] (f : ℕ → α) (s0 : ℕ → α) (n : ℕ) (i : ℕ) :
    ((List.range' 1 n).foldl (fun s ev => addAt s ev (f ev)) s0) i = s0 i + if 1 ≤ i ∧ i ≤ n then f i else 0 := by
  induction n with
  | zero => rw [if_neg (by omega), add_zero]; rfl
  | succ n ih =>
    rw [List.range'_1_concat, List.foldl_append, List.foldl_cons, List.foldl_nil]
    by_cases h : i = 1 + n
    · subst h
      rw [addAt_self, ih, if_neg (by omega), if_pos (by omega), add_zero]
    · rw [addAt_ne _ _ h, ih]
      congr 1
      by_cases h2 : 1 ≤ i ∧ i ≤ n
      · rw [if_pos h2, if_pos (by omega)]
      · rw [if_neg h2, if_neg (by omega)]

theorem foldl_pair {σ τ : Type} (f : σ → ℕ → σ) (g : τ → ℕ → τ) (l : List ℕ) (a : σ) (b : τ) :
    l.foldl (fun s ev => (f s.1 ev, g s.2 ev)) (a, b) = (l.foldl f a, l.foldl g b) := by
  induction l generalizing a b with
  | nil => rfl
  | cons x l ih => simp only [List.foldl_cons]; exact ih _ _

theorem calcReflTransEvent_eq (refl inc trans : Fin nt → ℝ) (ri ti : Fin nt → ℕ) (n : ℕ) :
    calcReflTransEvent refl inc trans ri ti n =
      ((List.range' 1 n).foldl (fun s ev => addAt s ev (sumAt refl ri ev)) (Function.update (fun _ => 0) 0 (∑ j, inc j)),
       (List.range' 1 n).foldl (fun s ev => addAt s ev (sumAt trans ti ev)) (fun _ => 0)) := by
  unfold calcReflTransEvent
  exact foldl_pair (fun s ev => addAt s ev (sumAt refl ri ev)) (fun s ev => addAt s ev (sumAt trans ti ev)) _ _ _

/-- C43.  Entry 0 of the reflectance distribution is the light reflected at the first surface, entry `ev` for
`1 ≤ ev ≤ nevents` the light of the trajectories whose exit event is `ev`, and the remaining entries are 0; likewise for
transmittance, whose entry 0 is 0. -/
theorem C43_event_distribution_entries (refl inc trans : Fin nt → ℝ) (ri ti : Fin nt → ℕ) (n : ℕ) :
    (calcReflTransEvent refl inc trans ri ti n).1 0 = ∑ j, inc j ∧
    (calcReflTransEvent refl inc trans ri ti n).2 0 = 0 ∧
    (∀ ev, 1 ≤ ev → ev ≤ n →
      (calcReflTransEvent refl inc trans ri ti n).1 ev = lightAt refl ri ev ∧
      (calcReflTransEvent refl inc trans ri ti n).2 ev = lightAt trans ti ev) ∧
    (∀ ev, n < ev →
      (calcReflTransEvent refl inc trans ri ti n).1 ev = 0 ∧ (calcReflTransEvent refl inc trans ri ti n).2 ev = 0) := by
  rw [calcReflTransEvent_eq]
  simp only [foldl_addAt, sumAt_eq]
  refine ⟨by simp, by simp, fun ev h1 h2 => ?_, fun ev h => ?_⟩
  · rw [if_pos ⟨h1, h2⟩, if_pos ⟨h1, h2⟩, Function.update_of_ne (by omega)]
    exact ⟨zero_add _, zero_add _⟩
  · rw [if_neg (by omega), if_neg (by omega), Function.update_of_ne (by omega)]
    exact ⟨zero_add _, zero_add _⟩

theorem sum_lightAt (a : Fin nt → ℝ) (idx : Fin nt → ℕ) (n : ℕ) (h : ∀ j, idx j ≤ n) :
    ∑ ev ∈ Finset.Icc 1 n, lightAt a idx ev = ∑ j, if idx j = 0 then 0 else a j := by
  unfold lightAt
  rw [Finset.sum_comm]
  refine Finset.sum_congr rfl fun j _ => ?_
  rw [Finset.sum_ite_eq]
  by_cases hj : idx j = 0
  · rw [if_neg (by simp [hj]), if_pos hj]
  · rw [if_pos (by simp; exact ⟨by omega, h j⟩), if_neg hj]

theorem sum_range_entries (f : ℕ → ℝ) (n : ℕ) (h : ∀ ev, n < ev → f ev = 0) :
    ∑ ev ∈ Finset.range (2 * n + 1), f ev = f 0 + ∑ ev ∈ Finset.Icc 1 n, f ev := by
  rw [Finset.range_eq_Ico, Finset.sum_eq_sum_Ico_succ_bot (by omega)]
  congr 1
  symm
  apply Finset.sum_subset
  · intro x hx; simp at hx ⊢; omega
  · intro x hx hx'; simp at hx hx'; exact h x (by omega)

/-- C43.  No light is lost or counted twice: when every exit event is at most `nevents`, the entries of the reflectance
distribution sum to the light reflected at the surface plus the contributions of the reflected trajectories (those with
non-zero exit event), and those of the transmittance distribution to the contributions of the transmitted ones. -/
theorem C43_event_distribution_total (refl inc trans : Fin nt → ℝ) (ri ti : Fin nt → ℕ) (n : ℕ)
    (hr : ∀ j, ri j ≤ n) (ht : ∀ j, ti j ≤ n) :
    ∑ ev ∈ Finset.range (2 * n + 1), (calcReflTransEvent refl inc trans ri ti n).1 ev
      = ∑ j, inc j + ∑ j, (if ri j = 0 then 0 else refl j) ∧
    ∑ ev ∈ Finset.range (2 * n + 1), (calcReflTransEvent refl inc trans ri ti n).2 ev
      = ∑ j, (if ti j = 0 then 0 else trans j) := by
  obtain ⟨h0, h0', h1, h2⟩ := C43_event_distribution_entries refl inc trans ri ti n
  constructor
  · rw [sum_range_entries _ n (fun ev h => (h2 ev h).1), h0, ← sum_lightAt refl ri n hr]
    congr 1
    exact Finset.sum_congr rfl fun ev hev => (h1 ev (Finset.mem_Icc.mp hev).1 (Finset.mem_Icc.mp hev).2).1
  · rw [sum_range_entries _ n (fun ev h => (h2 ev h).2), h0', zero_add, ← sum_lightAt trans ti n ht]
    exact Finset.sum_congr rfl fun ev hev => (h1 ev (Finset.mem_Icc.mp hev).1 (Finset.mem_Icc.mp hev).2).2

example : ∀ j : Fin 2, (![2, 0] : Fin 2 → ℕ) j ≤ 3 := by decide

/-! ### C44 -/

/-- the table a caller expects: entry `ev` of trajectory `j` is its weight if it exits at `ev` -/
def expectedTable (inc refl : Fin nt → ℝ) (ri : Fin nt → ℕ) (ev : ℕ) (j : Fin nt) : ℝ :=
  if ev = 0 then inc j else if ri j = ev then refl j else 0

/-- C44, refuted.  `calc_refl_trans_event_traj` never looks at the weights: whatever weights and transmitted events are
passed, the result is the same, so it cannot be a table of the weights. -/
theorem C44_weights_ignored_refuted (refl inc trans refl' inc' trans' : Fin nt → ℝ) (ri ti ti' : Fin nt → ℕ) (n : ℕ) :
    calcReflTransEventTraj refl inc trans ri ti n = calcReflTransEventTraj refl' inc' trans' ri ti' n := rfl

theorem foldl_pairFun {σ τ : Type} (f : σ → ℕ → σ) (g : τ → ℕ → τ) (l : List ℕ) (a : σ) (b : τ) :
    l.foldl (fun s ev => (f s.1 ev, g s.2 ev)) (a, b) = (l.foldl f a, l.foldl g b) := foldl_pair f g l a b

theorem foldl_tableTraj (f : ℕ → ℝ) (ri : Fin nt → ℕ) (s0 : ℕ → Fin nt → ℝ) (n i : ℕ) (j : Fin nt) :
    ((List.range' 1 n).foldl
      (fun (s : ℕ → Fin nt → ℝ) ev => Function.update s ev fun j => if ri j = ev then s ev j + f ev else s ev j) s0) i j =
    s0 i j + if 1 ≤ i ∧ i ≤ n ∧ ri j = i then f i else 0 := by
  induction n with
  | zero => rw [if_neg (by omega), add_zero]; rfl
  | succ n ih =>
    rw [List.range'_1_concat, List.foldl_append, List.foldl_cons, List.foldl_nil]
    by_cases h : i = 1 + n
    · subst h
      rw [Function.update_self]
      by_cases hr : ri j = 1 + n
      · rw [if_pos hr, ih, if_neg (by omega), if_pos (by omega), add_zero]
      · rw [if_neg hr, ih, if_neg (by omega), if_neg (by omega)]
    · rw [Function.update_of_ne h, ih]
      congr 1
      by_cases h2 : 1 ≤ i ∧ i ≤ n ∧ ri j = i
      · rw [if_pos h2, if_pos (by omega)]
      · rw [if_neg h2, if_neg (by omega)]

/-- C44, what holds: the tables have an entry only in row 0 and at the trajectory's own reflection event.  Row 0 holds the
reflection event number itself, and the entry at event `ev ≥ 1` is `ev` times the number of trajectories reflected at `ev`.
The transmittance table is the reflectance table without row 0. -/
theorem C44_event_table_partial (refl inc trans : Fin nt → ℝ) (ri ti : Fin nt → ℕ) (n ev : ℕ) (j : Fin nt) :
    (calcReflTransEventTraj refl inc trans ri ti n).1 0 j = ri j ∧
    (calcReflTransEventTraj refl inc trans ri ti n).2 0 j = 0 ∧
    (1 ≤ ev → (calcReflTransEventTraj refl inc trans ri ti n).1 ev j
        = (if ev ≤ n ∧ ri j = ev then (ev : ℝ) * (Finset.univ.filter fun k => ri k = ev).card else 0) ∧
      (calcReflTransEventTraj refl inc trans ri ti n).2 ev j
        = (calcReflTransEventTraj refl inc trans ri ti n).1 ev j) := by
  have hsum : ∀ ev, sumAt (fun j => (ri j : ℝ)) ri ev = (ev : ℝ) * (Finset.univ.filter fun k => ri k = ev).card := by
    intro ev
    unfold sumAt
    rw [Finset.sum_congr rfl (g := fun _ => (ev : ℝ)) (by intro x hx; simp at hx; simp [hx])]
    rw [Finset.sum_const, nsmul_eq_mul, mul_comm]
  have h : calcReflTransEventTraj refl inc trans ri ti n = (_, _) := foldl_pairFun
    (fun (s : ℕ → Fin nt → ℝ) ev => Function.update s ev fun j => if ri j = ev then s ev j + sumAt (fun j => (ri j : ℝ)) ri ev else s ev j)
    (fun (s : ℕ → Fin nt → ℝ) ev => Function.update s ev fun j => if ri j = ev then s ev j + sumAt (fun j => (ri j : ℝ)) ri ev else s ev j)
    _ _ _
  rw [h]
  simp only [foldl_tableTraj, hsum]
  refine ⟨by simp, by simp, fun h1 => ?_⟩
  rw [Function.update_of_ne (by omega)]
  simp [h1]

/-- C44, refuted on a concrete batch: one trajectory of weight 1/2 reflected at event 2 gets the entry 2. -/
theorem C44_not_expected_refuted :
    ∃ (refl inc trans : Fin 1 → ℝ) (ri ti : Fin 1 → ℕ) (n : ℕ),
      (calcReflTransEventTraj refl inc trans ri ti n).1 ≠ expectedTable inc refl ri := by
  refine ⟨fun _ => 1/2, fun _ => 0, fun _ => 0, fun _ => 2, fun _ => 0, 2, fun h => ?_⟩
  have h1 := congrFun (congrFun h 0) 0
  rw [(C44_event_table_partial _ _ _ _ _ 2 0 0).1] at h1
  simp [expectedTable] at h1

/-! ### C45 -/

/-- C45.  For non-negative events with a positive total, the slice divided by its sum is a probability distribution
proportional to the events. -/
theorem pdfSlice_spec (a : ℕ → ℝ) (lo hi : ℕ) (h0 : ∀ ev, lo ≤ ev → ev < hi → 0 ≤ a ev)
    (hpos : ∃ ev, lo ≤ ev ∧ ev < hi ∧ 0 < a ev) :
    ∃ q : Fin (hi - lo) → ℝ, (∀ i, pdfSlice a lo hi i = fin (q i)) ∧ (∀ i, 0 ≤ q i) ∧ ∑ i, q i = 1 ∧
      ∀ i k : Fin (hi - lo), q i * a (lo + k) = q k * a (lo + i) := by
  have hn : ∀ k : Fin (hi - lo), 0 ≤ a (lo + k) := fun k => h0 _ (by omega) (by omega)
  have hs : 0 < ∑ k : Fin (hi - lo), a (lo + k) := by
    obtain ⟨ev, h1, h2, h3⟩ := hpos
    refine Finset.sum_pos' (fun k _ => hn k) ⟨⟨ev - lo, by omega⟩, Finset.mem_univ _, ?_⟩
    simpa [Nat.add_sub_cancel' h1] using h3
  refine ⟨fun i => a (lo + i) / ∑ k : Fin (hi - lo), a (lo + k), fun i => ?_, fun i => div_nonneg (hn i) hs.le, ?_, ?_⟩
  · exact fin_div _ hs.ne'
  · rw [← Finset.sum_div, div_self hs.ne']
  · intro i k; ring

/-- C45.  `calc_pdf_scat` returns, for non-negative event distributions with some light reflected after the first event
(transmitted), probabilities of the events 2…nevents (1…nevents) that are non-negative, sum to 1 and are proportional to
the light of these events; so `rng.choice` accepts them. -/
theorem C45_pdf_scat (R T : ℕ → ℝ) (n : ℕ) (hR : ∀ ev, 0 ≤ R ev) (hT : ∀ ev, 0 ≤ T ev)
    (hR' : ∃ ev, 2 ≤ ev ∧ ev ≤ n ∧ 0 < R ev) (hT' : ∃ ev, 1 ≤ ev ∧ ev ≤ n ∧ 0 < T ev) :
    (∃ q : Fin (n + 1 - 2) → ℝ, (∀ i, (calcPdfScat R T n).1 i = fin (q i)) ∧ (∀ i, 0 ≤ q i) ∧ ∑ i, q i = 1 ∧
      ∀ i k : Fin (n + 1 - 2), q i * R (2 + k) = q k * R (2 + i)) ∧
    (∃ q : Fin (n + 1 - 1) → ℝ, (∀ i, (calcPdfScat R T n).2 i = fin (q i)) ∧ (∀ i, 0 ≤ q i) ∧ ∑ i, q i = 1 ∧
      ∀ i k : Fin (n + 1 - 1), q i * T (1 + k) = q k * T (1 + i)) ∧
    Traj.choiceOk (calcPdfScat R T n).1 ∧ Traj.choiceOk (calcPdfScat R T n).2 := by
  obtain ⟨eR, a1, a2, a3⟩ := hR'
  obtain ⟨eT, b1, b2, b3⟩ := hT'
  have hr := pdfSlice_spec R 2 (n + 1) (fun ev _ _ => hR ev) ⟨eR, a1, by omega, a3⟩
  have ht := pdfSlice_spec T 1 (n + 1) (fun ev _ _ => hT ev) ⟨eT, b1, by omega, b3⟩
  refine ⟨hr, ht, ?_, ?_⟩
  · obtain ⟨q, q1, q2, q3, _⟩ := hr
    refine ⟨fun i => ?_, ?_⟩
    · show _ ≤ pdfSlice R 2 (n + 1) i
      rw [q1, fin_le]; exact q2 i
    · show ∑ i, pdfSlice R 2 (n + 1) i = _
      rw [Finset.sum_congr rfl fun i _ => q1 i, sum_fin, q3]
  · obtain ⟨q, q1, q2, q3, _⟩ := ht
    refine ⟨fun i => ?_, ?_⟩
    · show _ ≤ pdfSlice T 1 (n + 1) i
      rw [q1, fin_le]; exact q2 i
    · show ∑ i, pdfSlice T 1 (n + 1) i = _
      rw [Finset.sum_congr rfl fun i _ => q1 i, sum_fin, q3]

/-- C45, the excluded case: with no light in the slice every probability is NaN, and `rng.choice` raises. -/
theorem C45_pdf_scat_no_light (R T : ℕ → ℝ) (n : ℕ) (hn : 2 ≤ n) (hR : ∀ ev, 2 ≤ ev → ev ≤ n → R ev = 0) :
    (∀ i, (calcPdfScat R T n).1 i = nan) ∧ ¬ Traj.choiceOk (calcPdfScat R T n).1 := by
  have h : ∀ i, (calcPdfScat R T n).1 i = nan := by
    intro i
    show pdfSlice R 2 (n + 1) i = nan
    unfold pdfSlice
    rw [Finset.sum_eq_zero (fun k _ => hR _ (by omega) (by omega)), hR _ (by omega) (by omega), fin_div_def]
    simp [infOfSign]
  refine ⟨h, fun hc => ?_⟩
  have := hc.1 ⟨0, by omega⟩
  rw [h] at this
  exact this

example : ∃ ev, 2 ≤ ev ∧ ev ≤ 3 ∧ (0:ℝ) < (fun e => if e = 2 then (1:ℝ) else 0) ev := ⟨2, by norm_num⟩

/-! ### C46 -/

theorem sum_addAt (len : ℕ) (s : ℕ → ℝ) (i : ℕ) (x : ℝ) (h : i < len) :
    ∑ k ∈ Finset.range len, addAt s i x k = ∑ k ∈ Finset.range len, s k + x := by
  have h1 : ∀ k, addAt s i x k = s k + if k = i then x else 0 := by
    intro k
    by_cases hk : k = i
    · subst hk; simp [addAt]
    · simp [addAt, Function.update_of_ne hk, hk]
  simp only [h1, Finset.sum_add_distrib, Finset.sum_ite_eq', Finset.mem_range, if_pos h]

theorem addAt_of_lt (s : ℕ → ℝ) (i : ℕ) (x : ℝ) (k : ℕ) (h : k < i) : addAt s i x k = s k := by
  simp [addAt, Function.update_of_ne (show k ≠ i by omega)]

theorem addAt_nonneg (s : ℕ → ℝ) (i : ℕ) (x : ℝ) (hx : 0 ≤ x) (k : ℕ) : s k ≤ addAt s i x k := by
  by_cases hk : k = i
  · subst hk; simp [addAt, hx]
  · simp [addAt, Function.update_of_ne hk]

/-- the light sent back into the sample by the trajectories that reach the surface at an event `1 … n` -/
def sentBack (a : Fin nt → ℝ) (idx : Fin nt → ℕ) (n : ℕ) : ℝ := ∑ j, if 1 ≤ idx j ∧ idx j ≤ n then a j else 0

theorem sentBack_succ (a : Fin nt → ℝ) (idx : Fin nt → ℕ) (n : ℕ) :
    sentBack a idx (n + 1) = sentBack a idx n + lightAt a idx (n + 1) := by
  unfold sentBack lightAt
  rw [← Finset.sum_add_distrib]
  refine Finset.sum_congr rfl fun j _ => ?_
  by_cases h : idx j = n + 1
  · rw [if_pos (by omega), if_neg (by omega), if_pos h, zero_add]
  · rw [if_neg h, add_zero]
    by_cases h2 : 1 ≤ idx j ∧ idx j ≤ n
    · rw [if_pos h2, if_pos (by omega)]
    · rw [if_neg h2, if_neg (by omega)]

theorem fresnelLoop_spec (R : ℕ → ℝ) (ri ti : Fin nt → ℕ) (rf tf : Fin nt → ℝ) (cr ct : ℝ) (n : ℕ) (sr st : ℕ → ℕ)
    (hr : ∀ ev, 1 ≤ ev → ev ≤ n → sr ev ≤ n) (ht : ∀ ev, 1 ≤ ev → ev ≤ n → st ev ≤ n) :
    ∃ out, fresnelLoop R ri ti rf tf cr ct n sr st = .ok out ∧
      ∑ k ∈ Finset.range (2 * n + 1), out k
        = ∑ k ∈ Finset.range (2 * n + 1), R k + cr * sentBack rf ri n + ct * sentBack tf ti n ∧
      (∀ c, (∀ ev, 1 ≤ ev → ev ≤ n → c < ev + sr ev ∧ c < ev + st ev) → out c = R c) ∧
      ((∀ j, 0 ≤ rf j) → (∀ j, 0 ≤ tf j) → 0 ≤ cr → 0 ≤ ct → ∀ k, R k ≤ out k) := by
  have key : ∀ m, m ≤ n → ∃ s : ℕ → ℝ,
      (List.range' 1 m).foldlM (fun s ev => do
        let s ← addAtChecked (2 * n + 1) s (ev + sr ev) (cr * sumAt rf ri ev)
        addAtChecked (2 * n + 1) s (ev + st ev) (ct * sumAt tf ti ev)) (fun _ => 0) = (.ok s : Except PyErr _) ∧
      ∑ k ∈ Finset.range (2 * n + 1), s k = cr * sentBack rf ri m + ct * sentBack tf ti m ∧
      (∀ c, (∀ ev, 1 ≤ ev → ev ≤ m → c < ev + sr ev ∧ c < ev + st ev) → s c = 0) ∧
      ((∀ j, 0 ≤ rf j) → (∀ j, 0 ≤ tf j) → 0 ≤ cr → 0 ≤ ct → ∀ k, 0 ≤ s k) := by
    intro m
    induction m with
    | zero =>
      intro _
      refine ⟨fun _ => 0, rfl, ?_, fun _ _ => rfl, fun _ _ _ _ _ => le_refl _⟩
      have : ∀ a : Fin nt → ℝ, ∀ idx : Fin nt → ℕ, sentBack a idx 0 = 0 := by
        intro a idx; unfold sentBack; exact Finset.sum_eq_zero fun j _ => if_neg (by omega)
      simp [this]
    | succ m ih =>
      intro hm
      obtain ⟨s, h1, h2, h3, h4⟩ := ih (by omega)
      have b1 : 1 + m + sr (1 + m) < 2 * n + 1 := by have := hr (1 + m) (by omega) (by omega); omega
      have b2 : 1 + m + st (1 + m) < 2 * n + 1 := by have := ht (1 + m) (by omega) (by omega); omega
      refine ⟨addAt (addAt s (1 + m + sr (1 + m)) (cr * sumAt rf ri (1 + m))) (1 + m + st (1 + m)) (ct * sumAt tf ti (1 + m)),
        ?_, ?_, ?_, ?_⟩
      · rw [List.range'_1_concat, List.foldlM_append, h1]
        simp only [List.foldlM_cons, List.foldlM_nil, addAtChecked, if_pos b1, if_pos b2, bind, Except.bind, pure, Except.pure]
      · rw [sum_addAt _ _ _ _ b2, sum_addAt _ _ _ _ b1, h2, sumAt_eq, sumAt_eq, sentBack_succ, sentBack_succ, Nat.add_comm 1 m]
        ring
      · intro c hc
        have hc' := hc (1 + m) (by omega) (by omega)
        rw [addAt_of_lt _ _ _ _ hc'.2, addAt_of_lt _ _ _ _ hc'.1]
        exact h3 c fun ev e1 e2 => hc ev e1 (by omega)
      · intro p1 p2 p3 p4 k
        refine le_trans (h4 p1 p2 p3 p4 k) (le_trans (addAt_nonneg _ _ _ ?_ _) (addAt_nonneg _ _ _ ?_ _))
        · exact mul_nonneg p3 (Finset.sum_nonneg fun j _ => p1 j)
        · exact mul_nonneg p4 (Finset.sum_nonneg fun j _ => p2 j)
  obtain ⟨s, h1, h2, h3, h4⟩ := key n le_rfl
  refine ⟨fun i => R i + s i, ?_, ?_, ?_, ?_⟩
  · unfold fresnelLoop
    rw [h1]; rfl
  · rw [Finset.sum_add_distrib, h2]; ring
  · intro c hc
    show R c + s c = R c
    rw [h3 c hc, add_zero]
  · intro p1 p2 p3 p4 k
    show R k ≤ R k + s k
    linarith [h4 p1 p2 p3 p4 k]

/-- C46.  With probabilities accepted by `rng.choice`, `calc_refl_event_fresnel_pdf` never fails, whatever the draws: all the
light lands inside the returned array, the total is the direct light plus `refl_frac` times the light sent back at the front
plus `trans_frac` times the light sent back at the back, events 0 and 1 are left alone (redistributed light comes out at a
later event), and no entry decreases when the weights and fractions are non-negative. -/
theorem C46_fresnel_pdf (R : ℕ → ℝ) (n : ℕ) (pr : Fin (n + 1 - 2) → XF) (pt : Fin (n + 1 - 1) → XF)
    (ri ti : Fin nt → ℕ) (rf tf : Fin nt → ℝ) (cr ct : ℝ) (dr : ℕ → Fin (n + 1 - 2)) (dt : ℕ → Fin (n + 1 - 1))
    (hp : Traj.choiceOk pr) (hq : Traj.choiceOk pt) :
    ∃ out, calcReflEventFresnelPdf R n pr pt ri ti rf tf cr ct dr dt = .ok out ∧
      ∑ k ∈ Finset.range (2 * n + 1), out k
        = ∑ k ∈ Finset.range (2 * n + 1), R k + cr * sentBack rf ri n + ct * sentBack tf ti n ∧
      out 0 = R 0 ∧ out 1 = R 1 ∧
      ((∀ j, 0 ≤ rf j) → (∀ j, 0 ≤ tf j) → 0 ≤ cr → 0 ≤ ct → ∀ k, R k ≤ out k) := by
  obtain ⟨out, h1, h2, h3, h4⟩ := fresnelLoop_spec R ri ti rf tf cr ct n (fun ev => 2 + (dr ev).val) (fun ev => 1 + (dt ev).val)
    (fun ev _ _ => by have := (dr ev).isLt; omega) (fun ev _ _ => by have := (dt ev).isLt; omega)
  refine ⟨out, ?_, h2, h3 0 ?_, h3 1 ?_, h4⟩
  · unfold calcReflEventFresnelPdf; rw [if_pos ⟨hp, hq⟩]; exact h1
  · intro ev e1 _; constructor <;> omega
  · intro ev e1 _; constructor <;> omega

/-- C46.  Probabilities that are not a distribution are rejected with a ValueError. -/
theorem C46_fresnel_pdf_error (R : ℕ → ℝ) (n : ℕ) (pr : Fin (n + 1 - 2) → XF) (pt : Fin (n + 1 - 1) → XF)
    (ri ti : Fin nt → ℕ) (rf tf : Fin nt → ℝ) (cr ct : ℝ) (dr : ℕ → Fin (n + 1 - 2)) (dt : ℕ → Fin (n + 1 - 1))
    (h : ¬ (Traj.choiceOk pr ∧ Traj.choiceOk pt)) :
    calcReflEventFresnelPdf R n pr pt ri ti rf tf cr ct dr dt = .error .valueError := by
  unfold calcReflEventFresnelPdf; rw [if_neg h]

theorem avgEvent_bounds (idx : Fin nt → ℕ) (n : ℕ) (h : ∀ j, idx j ≤ n) (hne : ∃ j, idx j ≠ 0) :
    ∃ m, avgEvent idx = some m ∧ 1 ≤ m ∧ m ≤ n := by
  obtain ⟨j0, hj0⟩ := hne
  let s : Finset (Fin nt) := Finset.univ.filter (fun j => idx j ≠ 0)
  have hmem : j0 ∈ s := by simp [s, hj0]
  have hc : s.card ≠ 0 := Finset.card_ne_zero.mpr ⟨j0, hmem⟩
  have hcp : (0 : ℝ) < s.card := by exact_mod_cast Nat.pos_of_ne_zero hc
  have hlo : (1 : ℝ) ≤ (∑ j ∈ s, (idx j : ℝ)) / s.card := by
    rw [le_div_iff₀ hcp]
    have := Finset.card_nsmul_le_sum s (fun j => (idx j : ℝ)) 1 (by
      intro j hj; simp [s] at hj; exact_mod_cast Nat.pos_of_ne_zero hj)
    simpa [nsmul_eq_mul] using this
  have hhi : (∑ j ∈ s, (idx j : ℝ)) / s.card ≤ n := by
    rw [div_le_iff₀ hcp]
    have := Finset.sum_le_card_nsmul s (fun j => (idx j : ℝ)) n (by intro j _; exact_mod_cast h j)
    rw [nsmul_eq_mul] at this; linarith
  refine ⟨(Traj.pyRound ((∑ j ∈ s, (idx j : ℝ)) / s.card)).toNat, ?_, ?_, pyRound_bounds (by linarith) hhi⟩
  · unfold avgEvent; exact if_neg hc
  · have := pyRound_spec ((∑ j ∈ s, (idx j : ℝ)) / s.card)
    rw [abs_le] at this
    have h2 : (1 / 2 : ℝ) ≤ (Traj.pyRound ((∑ j ∈ s, (idx j : ℝ)) / s.card) : ℝ) := by linarith [this.1]
    have h3 : (0 : ℤ) < Traj.pyRound ((∑ j ∈ s, (idx j : ℝ)) / s.card) := by
      by_contra hcon
      push Not at hcon
      have : (Traj.pyRound ((∑ j ∈ s, (idx j : ℝ)) / s.card) : ℝ) ≤ 0 := by exact_mod_cast hcon
      linarith
    omega

/-- C46.  `calc_refl_event_fresnel_avg`: when some trajectory is reflected, some is transmitted and all exits are within
`nevents`, it succeeds with the same total as `calc_refl_event_fresnel_pdf`, and events 0 and 1 are left alone. -/
theorem C46_fresnel_avg (R : ℕ → ℝ) (n : ℕ) (ri ti : Fin nt → ℕ) (rf tf : Fin nt → ℝ) (cr ct : ℝ)
    (hr : ∀ j, ri j ≤ n) (ht : ∀ j, ti j ≤ n) (hr' : ∃ j, ri j ≠ 0) (ht' : ∃ j, ti j ≠ 0) :
    ∃ out, calcReflEventFresnelAvg R ri ti rf tf cr ct n = .ok out ∧
      ∑ k ∈ Finset.range (2 * n + 1), out k
        = ∑ k ∈ Finset.range (2 * n + 1), R k + cr * sentBack rf ri n + ct * sentBack tf ti n ∧
      out 0 = R 0 ∧ out 1 = R 1 ∧
      ((∀ j, 0 ≤ rf j) → (∀ j, 0 ≤ tf j) → 0 ≤ cr → 0 ≤ ct → ∀ k, R k ≤ out k) := by
  obtain ⟨mr, h1, h2, h3⟩ := avgEvent_bounds ri n hr hr'
  obtain ⟨mt, g1, g2, g3⟩ := avgEvent_bounds ti n ht ht'
  obtain ⟨out, e1, e2, e3, e4⟩ := fresnelLoop_spec R ri ti rf tf cr ct n (fun _ => mr) (fun _ => mt)
    (fun _ _ _ => h3) (fun _ _ _ => g3)
  refine ⟨out, ?_, e2, e3 0 ?_, e3 1 ?_, e4⟩
  · unfold calcReflEventFresnelAvg
    rw [if_neg (by omega), h1, g1]; exact e1
  · intro ev _ _; constructor <;> omega
  · intro ev _ _; constructor <;> omega

/-- C46.  Without any reflected (or without any transmitted) trajectory the average exit event is NaN and
`calc_refl_event_fresnel_avg` fails with a ValueError. -/
theorem C46_fresnel_avg_error (R : ℕ → ℝ) (n : ℕ) (hn : 1 ≤ n) (ri ti : Fin nt → ℕ) (rf tf : Fin nt → ℝ) (cr ct : ℝ)
    (h : (∀ j, ri j = 0) ∨ ∀ j, ti j = 0) :
    calcReflEventFresnelAvg R ri ti rf tf cr ct n = .error .valueError := by
  have hnone : ∀ idx : Fin nt → ℕ, (∀ j, idx j = 0) → avgEvent idx = none := by
    intro idx hi
    unfold avgEvent
    apply if_pos
    rw [Finset.card_eq_zero, Finset.filter_eq_empty_iff]
    intro j _; simpa using hi j
  unfold calcReflEventFresnelAvg
  rw [if_neg (by omega)]
  rcases h with h | h
  · rw [hnone ri h]
  · rw [hnone ti h]; cases avgEvent ri <;> rfl

example : ∃ j : Fin 2, (![2, 0] : Fin 2 → ℕ) j ≠ 0 := ⟨0, by decide⟩

/-! ### C48 -/

/-- C48.  The path length of a trajectory is the sum of its first `exit` steps: 0 if it does not exit; it grows by the next
step from one event to the next; non-negative steps make it non-negative and non-decreasing in the exit event. -/
theorem C48_path_length (nev : ℕ) (step : ℕ → Fin nt → ℝ) (j : Fin nt) :
    (∀ exit : Fin nt → ℕ, exit j = 0 → calcPathLength nev step exit j = 0) ∧
    (∀ exit exit' : Fin nt → ℕ, exit' j = exit j + 1 → exit j < nev →
      calcPathLength nev step exit' j = calcPathLength nev step exit j + step (exit j) j) ∧
    ((∀ e, 0 ≤ step e j) → ∀ exit exit' : Fin nt → ℕ, exit j ≤ exit' j →
      0 ≤ calcPathLength nev step exit j ∧ calcPathLength nev step exit j ≤ calcPathLength nev step exit' j) := by
  refine ⟨fun exit h => by simp [calcPathLength, h], fun exit exit' h h' => ?_, fun h exit exit' hle => ⟨?_, ?_⟩⟩
  · unfold calcPathLength
    rw [h, Nat.min_eq_left (by omega), Nat.min_eq_left (by omega), Finset.sum_range_succ]
  · exact Finset.sum_nonneg fun e _ => h e
  · unfold calcPathLength
    apply Finset.sum_le_sum_of_subset_of_nonneg
    · intro x hx; simp at hx ⊢; omega
    · intro e _ _; exact h e

/-- C48.  For trajectories made by `Trajectory.move` from unit directions and non-negative steps, the path length up to an
exit event within the simulated events is the length of the polygon of positions up to that event. -/
theorem C48_path_length_is_polygon_length (nev : ℕ) (pos0 : ℕ → Fin nt → V3) (step : ℕ → Fin nt → ℝ)
    (dir : ℕ → Fin nt → V3) (exit : Fin nt → ℕ) (j : Fin nt) (hs : ∀ e, 0 ≤ step e j)
    (hd : ∀ e, V3.normSq (dir e j) = 1) (hx : exit j ≤ nev) :
    calcPathLength nev step exit j =
      ∑ e ∈ Finset.range (exit j),
        V3.norm (V3.sub (Traj.move pos0 step dir (e + 1) j) (Traj.move pos0 step dir e j)) := by
  unfold calcPathLength
  rw [Nat.min_eq_left hx]
  refine Finset.sum_congr rfl fun e _ => ?_
  have h1 : V3.sub (Traj.move pos0 step dir (e + 1) j) (Traj.move pos0 step dir e j) = V3.smul (step e j) (dir e j) := by
    have : Traj.move pos0 step dir (e + 1) j = V3.add (Traj.move pos0 step dir e j) (V3.smul (step e j) (dir e j)) := rfl
    rw [this]
    ext <;> simp [V3.sub, V3.add]
  rw [h1]
  have h2 : V3.normSq (V3.smul (step e j) (dir e j)) = step e j ^ 2 * V3.normSq (dir e j) := by
    simp [V3.normSq, V3.dot, V3.smul]; ring
  rw [V3.norm, h2, hd, mul_one, Real.sqrt_sq (hs e)]

example : V3.normSq (⟨0, 0, 1⟩ : V3) = 1 := by simp [V3.normSq, V3.dot]

/-- Non-vacuity of C44: three trajectories, two of them reflected at event 2: the entry there is 4, whatever they weigh. -/
example : (calcReflTransEventTraj (nt := 3) (fun _ => 1/4) (fun _ => 0) (fun _ => 0) ![2, 2, 0] ![0, 0, 1] 5).1 2 0 = 4 := by
  rw [((C44_event_table_partial _ _ _ _ _ 5 2 0).2.2 (by norm_num)).1]
  have : (Finset.univ.filter fun k : Fin 3 => (![2, 2, 0] : Fin 3 → ℕ) k = 2).card = 2 := by decide
  rw [this]; norm_num

end Verif.Props
