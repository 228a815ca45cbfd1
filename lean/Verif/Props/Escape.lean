import Verif.Lemmas.Walk
import Verif.Props.Ballistic
import Verif.Props.Persistence
import Verif.Props.Estimator

/-!
# C127: every photon leaves the film sooner or later
-/

namespace Verif.Props

set_option linter.unusedSectionVars false

open MeasureTheory ProbabilityTheory Filter Topology

section Film
open Verif.Spec Verif.Traj Verif.Simulation Verif.Exits Verif.Init XF
open Verif.Geometry (XV finV ofV3)

/-- one event of `scatter` on coordinates -/
noncomputable def turnW (t f : ℝ) (k : ℝ × ℝ × ℝ) : ℝ × ℝ × ℝ :=
  ((k.1 * Real.cos t + k.2.2 * Real.sin t) * Real.cos f - k.2.1 * Real.sin f,
   (k.1 * Real.cos t + k.2.2 * Real.sin t) * Real.sin f + k.2.1 * Real.cos f,
   -k.1 * Real.sin t + k.2.2 * Real.cos t)

/-- the three uniform numbers of one event -/
noncomputable def draws3 : Measure (Fin 3 → ℝ) := Measure.infinitePi fun _ => unif

instance : IsProbabilityMeasure draws3 := by unfold draws3; infer_instance

noncomputable def stepW (T : ℝ → ℝ) (u : Fin 3 → ℝ) (k : ℝ × ℝ × ℝ) : ℝ × ℝ × ℝ := turnW (T (u 0)) (2 * Real.pi * u 1) k

def exW (κ c : ℝ) (k : ℝ × ℝ × ℝ) (u : Fin 3 → ℝ) : Prop := κ < |k.2.2| ∧ c ≤ u 2

def sphereW : Set (ℝ × ℝ × ℝ) := {k | k.1 ^ 2 + k.2.1 ^ 2 + k.2.2 ^ 2 = 1}

theorem stepW_measurable {T : ℝ → ℝ} (hT : Measurable T) : Measurable fun p : (Fin 3 → ℝ) × (ℝ × ℝ × ℝ) => stepW T p.1 p.2 := by
  unfold stepW turnW
  fun_prop

theorem exW_measurable (κ c : ℝ) : MeasurableSet {p : (ℝ × ℝ × ℝ) × (Fin 3 → ℝ) | exW κ c p.1 p.2} := by
  unfold exW
  have h1 : Measurable fun p : (ℝ × ℝ × ℝ) × (Fin 3 → ℝ) => |p.1.2.2| := by fun_prop
  have h2 : Measurable fun p : (ℝ × ℝ × ℝ) × (Fin 3 → ℝ) => p.2 2 := by fun_prop
  exact (measurableSet_lt measurable_const h1).inter (measurableSet_le measurable_const h2)

theorem stepW_sphere (T : ℝ → ℝ) (u : Fin 3 → ℝ) : ∀ k ∈ sphereW, stepW T u k ∈ sphereW := by
  intro k hk
  simp only [sphereW, Set.mem_ofPred_eq, stepW, turnW] at hk ⊢
  have h1 := Real.sin_sq_add_cos_sq (T (u 0))
  have h2 := Real.sin_sq_add_cos_sq (2 * Real.pi * u 1)
  generalize Real.sin (T (u 0)) = a at *
  generalize Real.cos (T (u 0)) = b at *
  generalize Real.sin (2 * Real.pi * u 1) = c at *
  generalize Real.cos (2 * Real.pi * u 1) = d at *
  have e : ∀ x y z : ℝ, ((x * b + z * a) * d - y * c) ^ 2 + ((x * b + z * a) * c + y * d) ^ 2 + (-x * a + z * b) ^ 2 =
      ((x * b + z * a) ^ 2 + y ^ 2) * (c ^ 2 + d ^ 2) + (-x * a + z * b) ^ 2 := by intros; ring
  rw [e, h2, mul_one]
  have e2 : ∀ x y z : ℝ, (x * b + z * a) ^ 2 + y ^ 2 + (-x * a + z * b) ^ 2 = (x ^ 2 + z ^ 2) * (a ^ 2 + b ^ 2) + y ^ 2 := by
    intros; ring
  rw [e2, h1]
  linarith

theorem sphereW_compact : IsCompact sphereW := by
  refine Metric.isCompact_of_isClosed_isBounded ?_ ?_
  · exact isClosed_eq (by fun_prop) continuous_const
  · refine (Metric.isBounded_closedBall (x := (0 : ℝ × ℝ × ℝ)) (r := 1)).subset fun k hk => ?_
    simp only [sphereW, Set.mem_ofPred_eq] at hk
    rw [mem_closedBall_zero_iff, Prod.norm_def, Prod.norm_def]
    simp only [Real.norm_eq_abs, sup_le_iff, ← sq_le_one_iff_abs_le_one]
    refine ⟨?_, ?_, ?_⟩ <;> nlinarith [sq_nonneg k.1, sq_nonneg k.2.1, sq_nonneg k.2.2]

/-- a turn about z carries any vector of the plane to any other of the same length -/
theorem turn_plane {a b x y : ℝ} (h : a ^ 2 + b ^ 2 = x ^ 2 + y ^ 2) : ∃ v, 0 ≤ v ∧ v < 1 ∧
    a * Real.cos (2 * Real.pi * v) - b * Real.sin (2 * Real.pi * v) = x ∧
    a * Real.sin (2 * Real.pi * v) + b * Real.cos (2 * Real.pi * v) = y := by
  by_cases h0 : a ^ 2 + b ^ 2 = 0
  · have ha : a = 0 := by nlinarith [sq_nonneg a, sq_nonneg b]
    have hb : b = 0 := by nlinarith [sq_nonneg a, sq_nonneg b]
    have hx : x = 0 := by nlinarith [sq_nonneg x, sq_nonneg y]
    have hy : y = 0 := by nlinarith [sq_nonneg x, sq_nonneg y]
    exact ⟨0, le_rfl, one_pos, by simp [ha, hb, hx], by simp [ha, hb, hy]⟩
  · -- the cosine and sine of the angle
    set C := (a * x + b * y) / (a ^ 2 + b ^ 2) with hC
    set S := (a * y - b * x) / (a ^ 2 + b ^ 2) with hS
    have hCS : C ^ 2 + S ^ 2 = 1 := by
      rw [hC, hS, div_pow, div_pow, ← add_div, div_eq_one_iff_eq (pow_ne_zero 2 h0)]
      have : (a * x + b * y) ^ 2 + (a * y - b * x) ^ 2 = (a ^ 2 + b ^ 2) * (x ^ 2 + y ^ 2) := by ring
      rw [this, ← h]; ring
    obtain ⟨f, hf1, hf2⟩ : ∃ f, Real.cos f = C ∧ Real.sin f = S := by
      have hn : ‖(⟨C, S⟩ : ℂ)‖ = 1 := by
        rw [Complex.norm_def, Complex.normSq_mk, ← sq, ← sq, hCS, Real.sqrt_one]
      have hne : (⟨C, S⟩ : ℂ) ≠ 0 := by
        intro e; rw [e] at hn; simp at hn
      refine ⟨Complex.arg ⟨C, S⟩, ?_, ?_⟩
      · rw [Complex.cos_arg hne, hn]; simp
      · rw [Complex.sin_arg, hn]; simp
    have e : 2 * Real.pi * Int.fract (f / (2 * Real.pi)) = f - ⌊f / (2 * Real.pi)⌋ * (2 * Real.pi) := by
      unfold Int.fract
      have := Real.pi_pos
      field_simp
    refine ⟨Int.fract (f / (2 * Real.pi)), Int.fract_nonneg _, Int.fract_lt_one _, ?_, ?_⟩
    all_goals rw [e, Real.cos_sub_int_mul_two_pi, Real.sin_sub_int_mul_two_pi, hf1, hf2, hC, hS]
    all_goals field_simp
    all_goals ring

theorem unif_ball {v ε : ℝ} (h0 : 0 ≤ v) (h1 : v < 1) (hε : 0 < ε) : unif (Metric.ball v ε) ≠ 0 := by
  have h : Set.Ico v (min (v + ε) 1) ⊆ Metric.ball v ε ∩ Set.Ico 0 1 := by
    rintro x ⟨hx1, hx2⟩
    have := lt_min_iff.mp hx2
    refine ⟨?_, h0.trans hx1, this.2⟩
    rw [Metric.mem_ball, Real.dist_eq, abs_lt]
    constructor <;> linarith
  rw [unif, Measure.restrict_apply Metric.isOpen_ball.measurableSet]
  have h2 := measure_mono (μ := volume) h
  rw [Real.volume_Ico] at h2
  intro e
  rw [e] at h2
  have h3 := ENNReal.ofReal_eq_zero.mp (le_antisymm h2 bot_le)
  have : v < min (v + ε) 1 := lt_min (by linarith) h1
  linarith

theorem draws3_box (A B C : Set ℝ) (hA : MeasurableSet A) (hB : MeasurableSet B) (hC : MeasurableSet C) :
    MeasurableSet {u : Fin 3 → ℝ | u 0 ∈ A ∧ u 1 ∈ B ∧ u 2 ∈ C} ∧
    draws3 {u | u 0 ∈ A ∧ u 1 ∈ B ∧ u 2 ∈ C} = unif A * unif B * unif C := by
  have e : {u : Fin 3 → ℝ | u 0 ∈ A ∧ u 1 ∈ B ∧ u 2 ∈ C} = Set.pi (Finset.univ : Finset (Fin 3)) ![A, B, C] := by
    ext u
    simp [Fin.forall_fin_succ]
  have hm : ∀ i : Fin 3, MeasurableSet (![A, B, C] i) := by
    intro i; fin_cases i <;> assumption
  constructor
  · rw [e]; exact .pi (Set.to_countable _) fun i _ => hm i
  · rw [e, draws3, Measure.infinitePi_pi _ fun i _ => hm i, Fin.prod_univ_three]
    rfl

variable {T : ℝ → ℝ} {κ c θ : ℝ}

/-- inclinations from which the axis can be reached -/
inductive Reach (κ θ : ℝ) : ℝ → Prop
  | now {z : ℝ} (h : κ < |z|) : Reach κ θ z
  | step {z x : ℝ} (hx : x ^ 2 ≤ 1 - z ^ 2) (h : Reach κ θ (Real.cos θ * z - Real.sin θ * x)) : Reach κ θ z

theorem Reach.neg {z : ℝ} (h : Reach κ θ z) : Reach κ θ (-z) := by
  induction h with
  | now h => exact .now (by rwa [abs_neg])
  | @step z x hx _ ih => exact .step (x := -x) (by simpa using hx) (by convert ih using 1; ring)

/-- the same with `|cos θ|` -/
theorem Reach.step' {z x : ℝ} (hx : x ^ 2 ≤ 1 - z ^ 2) (h : Reach κ θ (|Real.cos θ| * z - Real.sin θ * x)) : Reach κ θ z := by
  rcases abs_cases (Real.cos θ) with ⟨e, -⟩ | ⟨e, -⟩
  · rw [e] at h; exact .step hx h
  · rw [e] at h
    refine .step (x := -x) (by simpa using hx) ?_
    convert h.neg using 1
    ring

theorem Reach.all (hκ : κ < 1) (hθ : 0 < Real.sin θ) {z : ℝ} (hz : |z| ≤ 1) : Reach κ θ z := by
  -- the angle in (0, π/2] with the same sine
  set s := Real.sin θ with hs
  set b := |Real.cos θ| with hb
  have hsb : s ^ 2 + b ^ 2 = 1 := by rw [hs, hb, sq_abs, Real.sin_sq_add_cos_sq]
  have hb0 : 0 ≤ b := abs_nonneg _
  set β := Real.arccos b with hβ
  have hb1 : b ≤ 1 := Real.abs_cos_le_one θ
  have hcβ : Real.cos β = b := Real.cos_arccos (by linarith) hb1
  have hsβ : Real.sin β = s := by
    rw [hβ, Real.sin_arccos, show 1 - b ^ 2 = s ^ 2 by linarith, Real.sqrt_sq hθ.le]
  have hβ0 : 0 < β := by
    rw [hβ, Real.arccos_pos]
    by_contra h
    have : b = 1 := le_antisymm hb1 (not_lt.mp h)
    rw [this] at hsb
    nlinarith
  have hβ1 : β ≤ Real.pi / 2 := Real.arccos_le_pi_div_two.mpr hb0
  have r1 : Reach κ θ 1 := .now (by simpa using hκ)
  have rb : Reach κ θ b := .step' (x := -s) (by nlinarith) (by
    rw [← hb, ← hs]; convert r1 using 1; nlinarith)
  have close : ∀ z : ℝ, b ^ 2 - s ^ 2 ≤ z → z ≤ 1 → Reach κ θ z := by
    intro z h1 h2
    refine .step' (x := b * (z - 1) / s) ?_ ?_
    · rw [div_pow, div_le_iff₀ (by positivity)]
      have : 0 ≤ (1 - z) * (s ^ 2 * (1 + z) - b ^ 2 * (1 - z)) := by
        refine mul_nonneg (by linarith) ?_
        nlinarith
      nlinarith
    · rw [← hb, ← hs]
      convert rb using 1
      field_simp
      ring
  have main : ∀ n : ℕ, ∀ t : ℝ, 0 ≤ t → t ≤ Real.pi / 2 → t ≤ (n + 1) * β → Reach κ θ (Real.cos t) := by
    intro n
    induction n with
    | zero =>
      intro t h0 h1 h2
      refine close _ ?_ (Real.cos_le_one t)
      have : Real.cos (2 * β) = b ^ 2 - s ^ 2 := by rw [Real.cos_two_mul', hcβ, hsβ]
      rw [← this]
      refine Real.cos_le_cos_of_nonneg_of_le_pi h0 (by linarith) ?_
      push_cast at h2
      linarith
    | succ n ih =>
      intro t h0 h1 h2
      by_cases h3 : t ≤ (n + 1) * β
      · exact ih t h0 h1 h3
      have h4 : β ≤ t := by
        have : (0 : ℝ) ≤ n := Nat.cast_nonneg n
        nlinarith
      have := ih (t - β) (by linarith) (by linarith) (by push_cast at h2; linarith)
      refine .step' (x := -Real.sin t) ?_ ?_
      · rw [neg_sq]; have := Real.sin_sq_add_cos_sq t; linarith
      · rw [← hb, ← hs]
        convert this using 1
        rw [Real.cos_sub, hcβ, hsβ]; ring
  have pos : ∀ z : ℝ, 0 ≤ z → z ≤ 1 → Reach κ θ z := by
    intro z h0 h1
    obtain ⟨n, hn⟩ := exists_nat_ge (Real.arccos z / β)
    have := main n (Real.arccos z) (Real.arccos_nonneg z) (Real.arccos_le_pi_div_two.mpr h0) (by
      rw [div_le_iff₀ hβ0] at hn; nlinarith)
    rwa [Real.cos_arccos (by linarith) h1] at this
  obtain ⟨h1, h2⟩ := abs_le.mp hz
  rcases le_total 0 z with h | h
  · exact pos z h h2
  · have := (pos (-z) (by linarith) (by linarith)).neg
    rwa [neg_neg] at this

theorem esc_film (hT : Measurable T) (hTθ : unif {v | T v = θ} ≠ 0) (hκ : κ < 1) (hc : c < 1) (hθ : 0 < Real.sin θ) :
    ∀ k ∈ sphereW, Esc draws3 (stepW T) (exW κ c) k := by
  have hs := stepW_measurable hT
  have he := exW_measurable κ c
  have mθ : MeasurableSet {v | T v = θ} := hT (measurableSet_singleton θ)
  -- one event with the angle θ
  have one : ∀ k ∈ sphereW, ∀ x y : ℝ, x ^ 2 + y ^ 2 = 1 - (Real.cos θ * k.2.2 - Real.sin θ * k.1) ^ 2 →
      Esc draws3 (stepW T) (exW κ c) (x, y, Real.cos θ * k.2.2 - Real.sin θ * k.1) → Esc draws3 (stepW T) (exW κ c) k := by
    rintro ⟨a, b, z⟩ hk x y hxy h1
    simp only [sphereW, Set.mem_ofPred_eq] at hk
    simp only at hxy h1
    obtain ⟨v, hv0, hv1, e1, e2⟩ := turn_plane (a := a * Real.cos θ + z * Real.sin θ) (b := b) (x := x) (y := y) (by
      rw [hxy]
      nlinarith [Real.sin_sq_add_cos_sq θ])
    have e : turnW θ (2 * Real.pi * v) (a, b, z) = (x, y, Real.cos θ * z - Real.sin θ * a) := by
      unfold turnW
      simp only [Prod.mk.injEq]
      exact ⟨e1, e2, by ring⟩
    refine esc_step draws3 hs he h1 fun W hW => ?_
    have hcont : Continuous fun p : ℝ × (ℝ × ℝ × ℝ) => turnW θ (2 * Real.pi * p.1) p.2 := by
      unfold turnW; fun_prop
    have hev : ∀ᶠ p in 𝓝 (v, ((a, b, z) : ℝ × ℝ × ℝ)), turnW θ (2 * Real.pi * p.1) p.2 ∈ W := by
      refine hcont.continuousAt.eventually ?_
      dsimp only
      rw [e]
      exact hW
    rw [nhds_prod_eq, eventually_prod_iff] at hev
    obtain ⟨p1, hp1, p2, hp2, hp⟩ := hev
    obtain ⟨ε, hε, hball⟩ := Metric.eventually_nhds_iff_ball.mp hp1
    obtain ⟨hm, hbox⟩ := draws3_box {v | T v = θ} (Metric.ball v ε) Set.univ mθ Metric.isOpen_ball.measurableSet .univ
    refine ⟨_, hm, ?_, hp2.mono fun k hk u hu => ?_⟩
    · rw [hbox, measure_univ, mul_one]
      exact mul_ne_zero hTθ (unif_ball hv0 hv1 hε)
    · obtain ⟨h0, h1, -⟩ := hu
      have h0 : T (u 0) = θ := h0
      unfold stepW
      rw [h0]
      exact hp (hball _ h1) hk
  have reach : ∀ z, Reach κ θ z → ∀ x y, x ^ 2 + y ^ 2 = 1 - z ^ 2 → ∃ x y, x ^ 2 + y ^ 2 = 1 - z ^ 2 ∧ Esc draws3 (stepW T) (exW κ c) (x, y, z) := by
    intro z hz
    induction hz with
    | @now z h =>
      intro x y hxy
      refine ⟨x, y, hxy, ?_⟩
      obtain ⟨hm, hbox⟩ := draws3_box Set.univ Set.univ (Set.Ici c) .univ .univ measurableSet_Ici
      refine esc_now draws3 hs he hm ?_ ?_
      · rw [hbox, measure_univ, one_mul, one_mul]
        have := unif_ball (v := (max c 0 + 1) / 2) (ε := (1 - max c 0) / 2) (by positivity) (by
          have : max c 0 < 1 := max_lt hc one_pos
          linarith) (by
          have : max c 0 < 1 := max_lt hc one_pos
          linarith)
        refine fun h0 => this (measure_mono_null (fun v hv => ?_) h0)
        rw [Metric.mem_ball, Real.dist_eq, abs_lt] at hv
        have := le_max_left c 0
        simp only [Set.mem_Ici]
        linarith [hv.1]
      · have : ∀ᶠ k in 𝓝 ((x, y, z) : ℝ × ℝ × ℝ), κ < |k.2.2| := by
          have hc : Continuous fun k : ℝ × ℝ × ℝ => |k.2.2| := by fun_prop
          exact hc.continuousAt.eventually (lt_mem_nhds h)
        exact this.mono fun k hk u hu => ⟨hk, hu.2.2⟩
    | @step z x hx _ ih =>
      intro x' y' hxy'
      obtain ⟨y, hy⟩ : ∃ y, y ^ 2 = 1 - z ^ 2 - x ^ 2 := ⟨Real.sqrt (1 - z ^ 2 - x ^ 2), Real.sq_sqrt (by linarith)⟩
      have hk : ((x, y, z) : ℝ × ℝ × ℝ) ∈ sphereW := by
        simp only [sphereW, Set.mem_ofPred_eq]; linarith
      have h2 := stepW_sphere (fun _ => θ) (fun _ => 0) _ hk
      simp only [sphereW, Set.mem_ofPred_eq, stepW, turnW] at h2
      obtain ⟨x2, y2, hxy2, hE⟩ := ih _ _ (by
        have e : -x * Real.sin θ + z * Real.cos θ = Real.cos θ * z - Real.sin θ * x := by ring
        rw [e] at h2
        exact eq_sub_of_add_eq h2)
      exact ⟨x, y, by linarith, one _ hk x2 y2 hxy2 hE⟩
  intro k hk
  have hk' := hk
  have h2 := stepW_sphere (fun _ => θ) (fun _ => 0) _ hk
  simp only [sphereW, Set.mem_ofPred_eq, stepW, turnW] at h2
  have e : -k.1 * Real.sin θ + k.2.2 * Real.cos θ = Real.cos θ * k.2.2 - Real.sin θ * k.1 := by ring
  rw [e] at h2
  obtain ⟨x, y, hxy, hE⟩ := reach (Real.cos θ * k.2.2 - Real.sin θ * k.1) (Reach.all hκ hθ (by
    rw [← sq_le_one_iff_abs_le_one]
    nlinarith [h2, sq_nonneg ((k.1 * Real.cos θ + k.2.2 * Real.sin θ) * Real.cos (2 * Real.pi * 0) - k.2.1 * Real.sin (2 * Real.pi * 0)), sq_nonneg ((k.1 * Real.cos θ + k.2.2 * Real.sin θ) * Real.sin (2 * Real.pi * 0) + k.2.1 * Real.cos (2 * Real.pi * 0))])) _ _ (eq_sub_of_add_eq h2)
  exact one k hk x y hxy hE


/-- exponential bound for the probability of no exit, uniform in the direction -/
theorem trapped_rate (hT : Measurable T) (hTθ : unif {v | T v = θ} ≠ 0) (hκ : κ < 1) (hc : c < 1) (hθ : 0 < Real.sin θ) :
    ∃ A r : ℝ, 0 ≤ A ∧ 0 < r ∧ r < 1 ∧
      ∀ N, ∀ k ∈ sphereW, trapped draws3 (stepW T) (exW κ c) N k ≤ ENNReal.ofReal (A * r ^ N) := by
  have hs := stepW_measurable hT
  have he := exW_measurable κ c
  obtain ⟨M, b, hb, h⟩ := esc_uniform draws3 hs he sphereW_compact (esc_film hT hTθ hκ hc hθ)
  have hbt : b ≠ ⊤ := (hb.trans ENNReal.one_lt_top).ne
  set r1 : ℝ := max b.toReal (1 / 2) with hr1
  have hr10 : 0 < r1 := lt_of_lt_of_le (by norm_num) (le_max_right _ _)
  have hr11 : r1 < 1 := by
    refine max_lt ?_ (by norm_num)
    rw [← ENNReal.toReal_one]
    exact (ENNReal.toReal_lt_toReal hbt ENNReal.one_ne_top).mpr hb
  have hM : ∀ k ∈ sphereW, trapped draws3 (stepW T) (exW κ c) (M + 1) k ≤ ENNReal.ofReal r1 := by
    intro k hk
    refine (trapped_anti draws3 hs he M k).trans ((h k hk).trans ?_)
    rw [← ENNReal.ofReal_toReal hbt]
    exact ENNReal.ofReal_le_ofReal (le_max_left _ _)
  have hpow := trapped_pow draws3 hs he (fun u k hk => stepW_sphere T u k hk) ENNReal.ofReal_ne_top hM
  set r := r1 ^ (((M + 1 : ℕ) : ℝ)⁻¹) with hr
  have hrM : r ^ (M + 1) = r1 := Real.rpow_inv_natCast_pow hr10.le (Nat.succ_ne_zero M)
  have hr0 : 0 < r := Real.rpow_pos_of_pos hr10 _
  have hrlt : r < 1 := Real.rpow_lt_one hr10.le hr11 (by positivity)
  refine ⟨r1⁻¹, r, by positivity, hr0, hrlt, fun N k hk => ?_⟩
  have hle : N / (M + 1) * (M + 1) ≤ N := Nat.div_mul_le_self N (M + 1)
  refine (trapped_antitone draws3 hs he k hle).trans ((hpow _ k hk).trans ?_)
  rw [← ENNReal.ofReal_pow hr10.le]
  refine ENNReal.ofReal_le_ofReal ?_
  rw [inv_mul_eq_div, le_div_iff₀ hr10, ← pow_succ, ← hrM, ← pow_mul]
  refine pow_le_pow_of_le_one hr0.le hrlt.le ?_
  have := Nat.lt_div_mul_add (a := N) (b := M + 1) (Nat.succ_pos M)
  nlinarith

variable {nt num : ℕ}

/-- coordinates of a vector -/
def coords (v : V3) : ℝ × ℝ × ℝ := (v.x, v.y, v.z)

theorem coords_turn (t f : ℝ) (k : V3) : coords (turn (Real.sin t) (Real.cos t) (Real.sin f) (Real.cos f) k) = turnW t f (coords k) := rfl

/-- the walk of a simulated photon: the first direction is that of `initialize`, each event turns the direction by the sampled angles, each
step goes along the direction, and from the second on its length is that drawn with the scattering coefficient of the sample -/
theorem sim_walk {a : Args nt} {S : Sampling nt num} {nev : ℕ} {p0 : Props0 nt} {t : Trajs nt} (hp : initializeTraj a = .ok p0)
    (ht : simulate (nev + 1) a S = .ok t) (hmu : 0 < S.mu_scat) (j : Fin nt) :
    t.direction 0 j = valV (p0.k0 0 j) ∧
    (∀ e, e < nev → coords (t.direction (e + 1) j) =
      turnW (linspace S.min_angle Real.pi num (S.draw_theta e j)) (2 * Real.pi * S.rand_phi e j) (coords (t.direction e j))) ∧
    ∀ e, 1 ≤ e → (t.position (e + 1) j).z - (t.position e j).z = -Real.log (1 - S.rand_step e j) / S.mu_scat * (t.direction e j).z := by
  unfold simulate at ht
  rw [hp] at ht
  simp only [Bind.bind, Except.bind] at ht
  rcases ha : sampleAngles1 (nev + 1) S.p S.min_angle S.draw_theta S.rand_phi with e | ang
  · rw [ha] at ht; cases ht
  rw [ha] at ht
  simp only at ht
  rcases hst : sampleStep nt S.mu_scat S.mu_scat_mie S.fine_roughness S.rand_step S.rand_mie with e | step
  · rw [hst] at ht; cases ht
  rw [hst] at ht
  simp only [Pure.pure, Except.pure] at ht
  injection ht with ht
  subst ht
  have hang : ang = mkAngles (nev + 1 - 1) (fun i j => linspace S.min_angle Real.pi num (S.draw_theta i j)) (fun i j => 2 * Real.pi * S.rand_phi i j) := by
    unfold sampleAngles1 at ha
    dsimp only at ha
    split at ha
    · injection ha with ha; exact ha.symm
    · cases ha
  have hstep : ∀ e, 1 ≤ e → step e j = fin (-Real.log (1 - S.rand_step e j) / S.mu_scat) := by
    intro e he
    unfold sampleStep at hst
    split at hst
    · cases hst
    · cases hm : S.mu_scat_mie with
      | none =>
        rw [hm] at hst
        simp only at hst
        injection hst with hst
        rw [← hst]
        exact fin_div _ hmu.ne'
      | some m =>
        rw [hm] at hst
        simp only at hst
        injection hst with hst
        rw [← hst]
        dsimp only
        rw [if_neg (by omega)]
        exact fin_div _ hmu.ne'
  have hl := scatter_loop (fun i j => valV (p0.k0 i j)) ang.sintheta ang.costheta ang.sinphi ang.cosphi nev
  refine ⟨congrFun hl.1 j, fun e he => ?_, fun e he => ?_⟩
  · have := hl.2.1 e he j
    refine (congrArg coords this).trans ?_
    subst hang
    exact coords_turn _ _ _
  · have h := congrArg V3.z (C33_move_steps (fun i j => valV (p0.r0 i j)) (fun i j => val (step i j))
      (scatter (nev + 1) (fun i j => valV (p0.k0 i j)) ang.sintheta ang.costheta ang.sinphi ang.cosphi) e j).2
    simp only [V3.sub, V3.smul, hstep e he] at h
    exact h

/-- a step of at least twice the thickness at a steep angle leaves the film -/
theorem long_step_exits {nev : ℕ} {ns nm th zl : ℝ} (hm : 0 < nm) (hle : nm ≤ ns) (hth : zl < th)
    (z : Fin (nev + 1) → Fin nt → ℝ) (kz : Fin nev → Fin nt → ℝ) (hk : ∀ e j, |kz e j| ≤ 1) (e : Fin nev) (j : Fin nt)
    (hκ : max (Real.sqrt (1 - (nm / ns) ^ 2)) (1 / 2) < |kz e j|) {s : ℝ} (hs : 2 * (th - zl) ≤ s)
    (hz : z e.succ j - z e.castSucc j = s * kz e j) :
    (findValidExitsFilm ns nm th zl z kz).pos e j = true ∨ (findValidExitsFilm ns nm th zl z kz).neg e j = true := by
  have hns : 0 < ns := hm.trans_le hle
  obtain ⟨hp, hn, -⟩ := C11_film_exit_face hns hm hle hth z kz hk e j
  have hd : 0 < th - zl := by linarith
  have hκ1 := (le_max_left _ _).trans_lt hκ
  have hκ2 := (le_max_right _ _).trans_lt hκ
  have hcone : ns * Real.sqrt (1 - kz e j ^ 2) < nm := by
    rw [mul_comm, ← lt_div_iff₀ hns]
    have h0 : 0 < nm / ns := div_pos hm hns
    rw [Real.sqrt_lt' h0]
    rw [Real.sqrt_lt' (by linarith [abs_nonneg (kz e j)] : 0 < |kz e j|), sq_abs] at hκ1
    linarith
  have hface : ∀ b : ℤ, zl + fold b * (th - zl) = th ∨ zl + fold b * (th - zl) = zl := by
    intro b
    rw [fold_int]
    split_ifs
    · right; ring
    · left; ring
  have hcross : ∃ b, FirstCrossed ((z e.castSucc j - zl) / (th - zl)) ((z e.succ j - zl) / (th - zl)) b := by
    have hdu : (z e.succ j - zl) / (th - zl) = (z e.castSucc j - zl) / (th - zl) + s / (th - zl) * kz e j := by
      field_simp
      linarith
    have hs2 : 2 ≤ s / (th - zl) := by rw [le_div_iff₀ hd]; exact hs
    rw [hdu]
    set u := (z e.castSucc j - zl) / (th - zl)
    rcases lt_abs.mp hκ2 with h | h
    · refine ⟨⌊u⌋ + 1, Or.inl ⟨?_, ?_, ?_⟩⟩
      · push_cast; exact Int.lt_floor_add_one u
      · push_cast
        have := Int.floor_le u
        nlinarith
      · intro c hc
        have := Int.floor_lt.mpr hc
        omega
    · refine ⟨⌊u⌋, Or.inr ⟨?_, Int.floor_le u, ?_⟩⟩
      · have := Int.lt_floor_add_one u
        nlinarith
      · intro c hc
        exact Int.le_floor.mpr hc
  obtain ⟨b, hb⟩ := hcross
  rcases hface b with h | h
  · exact Or.inl (hp.mpr ⟨hcone, b, hb, h⟩)
  · exact Or.inr (hn.mpr ⟨hcone, b, hb, h⟩)

/-- the number `calc_refl_trans` gives a trajectory `j` that never leaves the film (0 for one that does) -/
noncomputable def stuckEvent (nev : ℕ) (d : DetArgs) (t : Trajs nt) (j : Fin nt) : ℕ :=
  let X := findValidExitsFilm d.optics.n_tir d.n_medium d.thickness d.z_low
    (fun (e : Fin (nev + 2)) j => (t.position e j).z) (fun (e : Fin (nev + 1)) j => (t.direction e j).z)
  (findEventIndices X.neg X.pos X.tir).2.2.1 j

/-- a photon that never leaves has made no long step at a steep angle -/
theorem noExit_of_stuck {nev : ℕ} {d : DetArgs} {t : Trajs nt} {j : Fin nt} (hm : 0 < d.n_medium) (hle : d.n_medium ≤ d.optics.n_tir)
    (hth : d.z_low < d.thickness) (hk : ∀ i j, i < nev + 1 → |(t.direction i j).z| ≤ 1) {mu : ℝ} (hmu : 0 < mu) {T : ℝ → ℝ}
    (D : ℕ → Fin 3 → ℝ) (hD : ∀ e, D e 2 < 1)
    (hturn : ∀ e, e < nev → coords (t.direction (e + 1) j) = stepW T (D e) (coords (t.direction e j)))
    (hstep : ∀ e, 1 ≤ e → (t.position (e + 1) j).z - (t.position e j).z = -Real.log (1 - D e 2) / mu * (t.direction e j).z)
    (hst : stuckEvent nev d t j ≠ 0) (N i : ℕ) (h1 : 1 ≤ i) (hi : i + N ≤ nev + 1) :
    noExit (stepW T) (exW (max (Real.sqrt (1 - (d.n_medium / d.optics.n_tir) ^ 2)) (1 / 2))
      (1 - Real.exp (-(mu * (2 * (d.thickness - d.z_low)))))) N (coords (t.direction i j)) fun n => D (i + n) := by
  induction N generalizing i with
  | zero => trivial
  | succ N ih =>
    refine ⟨?_, ?_⟩
    · rintro ⟨g1, g2⟩
      have hx := long_step_exits (nev := nev + 1) hm hle hth (fun e j => (t.position e j).z) (fun e j => (t.direction e j).z)
        (fun e j => hk e j e.isLt) ⟨i, by omega⟩ j g1 (s := -Real.log (1 - D i 2) / mu) (by
          rw [le_div_iff₀ hmu, le_neg]
          have h2 : 1 - D i 2 ≤ Real.exp (-(mu * (2 * (d.thickness - d.z_low)))) := by simpa using (by linarith [g2] : 1 - D (i + 0) 2 ≤ _)
          have h3 := Real.log_le_log (by linarith [hD i]) h2
          rw [Real.log_exp] at h3
          linarith) (hstep i h1)
      have h10 := (C10_first_exit (by omega)
        (findValidExitsFilm d.optics.n_tir d.n_medium d.thickness d.z_low
          (fun (e : Fin (nev + 2)) j => (t.position e j).z) (fun (e : Fin (nev + 1)) j => (t.direction e j).z)).neg
        (findValidExitsFilm d.optics.n_tir d.n_medium d.thickness d.z_low
          (fun (e : Fin (nev + 2)) j => (t.position e j).z) (fun (e : Fin (nev + 1)) j => (t.direction e j).z)).pos
        (findValidExitsFilm d.optics.n_tir d.n_medium d.thickness d.z_low
          (fun (e : Fin (nev + 2)) j => (t.position e j).z) (fun (e : Fin (nev + 1)) j => (t.direction e j).z)).tir j).2.2.1.mp hst (i + 1)
      rcases hx with h | h
      · exact h10.2 ⟨_, rfl, h⟩
      · exact h10.1 ⟨_, rfl, h⟩
    · cases N with
      | zero => trivial
      | succ N =>
        have h2 := ih (i + 1) (by omega) (by omega)
        rw [hturn i (by omega)] at h2
        have e : (fun n => D (i + 1 + n)) = fun n => (fun n => D (i + n)) (n + 1) := by
          funext n; dsimp only; congr 1; omega
        rw [e] at h2
        exact h2


/-- some grid angle strictly between 0 and pi is sampled -/
theorem sampled_angle {n : ℕ} {p : Fin (n + 1) → ℝ} {m : ℝ} (hp : ∀ i, 0 ≤ p i) (hm : 0 ≤ m ∧ m ≤ Real.pi)
    (hpos : 0 < ∑ i, solidWeight p m i) : ∃ θ, 0 < Real.sin θ ∧
      unif {v | linspace m Real.pi (n + 1) (choiceIndex (probTheta p m) v) = θ} ≠ 0 := by
  obtain ⟨k, -, hk⟩ := Finset.exists_lt_of_sum_lt (s := Finset.univ) (f := fun _ => (0 : ℝ)) (g := solidWeight p m) (by simpa using hpos)
  have hw : ∀ i, 0 ≤ solidWeight p m i := fun i => mul_nonneg (hp i) (sin_linspace_nonneg hm.1 hm.2 i.isLt)
  have hsin : 0 < Real.sin (linspace m Real.pi (n + 1) k) := by
    by_contra h
    have h0 : Real.sin (linspace m Real.pi (n + 1) k) = 0 := le_antisymm (not_lt.mp h) (sin_linspace_nonneg hm.1 hm.2 k.isLt)
    rw [solidWeight, h0, mul_zero] at hk
    exact lt_irrefl _ hk
  refine ⟨_, hsin, fun h0 => ?_⟩
  set q : Fin (n + 1) → ℝ := fun k => solidWeight p m k / ∑ k', solidWeight p m k' with hq
  have hprob : probTheta p m = fun k => fin (q k) := by
    ext1 k
    rw [C71_theta_solid_angle_partial p m hpos.ne' k]
  have hlaw := choice_law (P := unif) (U := id) measurable_id (by rw [Measure.map_id]) (q := q)
    (fun i => div_nonneg (hw i) hpos.le) (by rw [hq, ← Finset.sum_div]; exact div_self hpos.ne') k
  have h1 : unif {v | choiceIndex (fun i => fin (q i)) (id v) = k} = 0 := by
    refine measure_mono_null (fun v hv => ?_) h0
    have hv : choiceIndex (fun i => fin (q i)) (id v) = k := hv
    show linspace m Real.pi (n + 1) (choiceIndex (probTheta p m) v) = _
    rw [hprob]
    exact congrArg (fun k : Fin (n + 1) => linspace m Real.pi (n + 1) k) hv
  rw [measureReal_def, h1, ENNReal.toReal_zero] at hlaw
  exact (div_pos hk hpos).ne hlaw

/-- the sampling of a simulation takes its numbers from the generator: `U ((i, j), 0)` for the scattering angle of event `i` of photon `j`,
`U ((i, j), 1)` for its azimuth and `U ((i, j), 2)` for its step -/
structure FromDraws {Ω : Type} {n : ℕ} (U : (ℕ × Fin nt) × Fin 3 → Ω → ℝ) (p : Fin (n + 1) → ℝ) (m mu : ℝ) (S : Ω → Sampling nt (n + 1)) :
    Prop where
  phase : ∀ ω, (S ω).p = p
  min_angle : ∀ ω, (S ω).min_angle = m
  mu_scat : ∀ ω, (S ω).mu_scat = mu
  draw_theta : ∀ ω i j, (S ω).draw_theta i j = choiceIndex (probTheta p m) (U ((i, j), 0) ω)
  rand_phi : ∀ ω i j, (S ω).rand_phi i j = U ((i, j), 1) ω
  rand_step : ∀ ω i j, (S ω).rand_step i j = U ((i, j), 2) ω

/-- **C127.**  Every photon leaves the film sooner or later: the probability that a photon is still in the film after `nev + 1` events is at
most `A r^nev` with `r < 1`.  The numbers `A` and `r` depend only on the film, the scattering coefficient and the phase function (any
non-negative phase function that is not zero at every angle), not on the illumination, the absorption or the roughness, and not on the
number of events. -/
theorem C127_light_leaves {n : ℕ} (p : Fin (n + 1) → ℝ) (m mu : ℝ) (d : DetArgs) (hp : ∀ i, 0 ≤ p i) (hm : 0 ≤ m ∧ m ≤ Real.pi)
    (hpos : 0 < ∑ i, solidWeight p m i) (hmu : 0 < mu) (hnm : 0 < d.n_medium) (hle : d.n_medium ≤ d.optics.n_tir)
    (hth : d.z_low < d.thickness) :
    ∃ A r : ℝ, 0 ≤ A ∧ 0 < r ∧ r < 1 ∧
      ∀ {nt : ℕ} {Ω : Type} [MeasurableSpace Ω] (P : Measure Ω) [IsProbabilityMeasure P] (U : (ℕ × Fin nt) × Fin 3 → Ω → ℝ),
        UniformDraws P U → ∀ (a : Args nt) (S : Ω → Sampling nt (n + 1)), FromDraws U p m mu S → (∀ ω, FilmRun a (S ω) d) →
        ∀ (nev : ℕ) (t : Ω → Trajs nt), (∀ ω, simulate (nev + 1) a (S ω) = .ok (t ω)) →
        ∀ j, P.real {ω | stuckEvent nev d (t ω) j ≠ 0} ≤ A * r ^ nev := by
  obtain ⟨θ, hθ, hTθ⟩ := sampled_angle hp hm hpos
  set T : ℝ → ℝ := fun v => linspace m Real.pi (n + 1) (choiceIndex (probTheta p m) v) with hTdef
  have hT : Measurable T :=
    (measurable_of_finite fun k : Fin (n + 1) => linspace m Real.pi (n + 1) k).comp (measurable_choiceIndex _)
  set κ := max (Real.sqrt (1 - (d.n_medium / d.optics.n_tir) ^ 2)) (1 / 2) with hκ
  set c := 1 - Real.exp (-(mu * (2 * (d.thickness - d.z_low)))) with hc
  have hκ1 : κ < 1 := by
    refine max_lt ?_ (by norm_num)
    rw [Real.sqrt_lt' one_pos]
    have : 0 < (d.n_medium / d.optics.n_tir) ^ 2 := by
      have := hnm.trans_le hle
      positivity
    linarith
  have hc1 : c < 1 := by have := Real.exp_pos (-(mu * (2 * (d.thickness - d.z_low)))); linarith
  obtain ⟨A, r, hA, hr0, hr1, hbound⟩ := trapped_rate hT hTθ hκ1 hc1 hθ
  refine ⟨A, r, hA, hr0, hr1, ?_⟩
  intro nt Ω mΩ P hP U hU a S hS H nev t ht j
  obtain ⟨ω0⟩ : Nonempty Ω := by
    by_contra h
    rw [not_nonempty_iff] at h
    have := hP.measure_univ
    rw [Set.eq_empty_of_isEmpty (Set.univ : Set Ω), measure_empty] at this
    exact zero_ne_one this
  obtain ⟨p0, hp0, -, -, hk0, -⟩ := init_facts (H ω0)
  obtain ⟨k, hk1, hk2⟩ := hk0 j
  have hkS : coords k ∈ sphereW := by
    simp only [sphereW, Set.mem_ofPred_eq, coords]
    simp only [V3.normSq, V3.dot] at hk2
    nlinarith
  -- the stream of draws of this photon
  let D : Ω → ℕ → Fin 3 → ℝ := fun ω e i => U ((e, j), i) ω
  have hDm : Measurable D := measurable_pi_lambda _ fun e => measurable_pi_lambda _ fun i => hU.meas _
  have hlaw : P.map D = Measure.infinitePi fun _ : ℕ => draws3 := by
    let V : ℕ × Fin 3 → Ω → ℝ := fun x => U ((x.1, j), x.2)
    have hV : UniformDraws P V := by
      refine ⟨fun _ => hU.meas _, fun _ => hU.law _, hU.indep.precomp (g := fun x : ℕ × Fin 3 => ((x.1, j), x.2)) ?_⟩
      rintro ⟨a, b⟩ ⟨a', b'⟩ h
      simp only [Prod.mk.injEq, and_true] at h
      rw [h.1, h.2]
    have e1 : P.map (fun ω x => V x ω) = Measure.infinitePi fun _ : ℕ × Fin 3 => unif := by
      rw [(iIndepFun_iff_map_fun_eq_infinitePi_map hV.meas).mp hV.indep]
      congr 1
      funext i
      exact hV.law i
    have e2 := Measure.infinitePi_map_curry (ι := ℕ) (κ := Fin 3) (fun _ _ => unif)
    rw [← e1, Measure.map_map (MeasurableEquiv.measurable _) (measurable_pi_lambda _ fun x => hV.meas x)] at e2
    exact e2
  -- a photon that is stuck has not left in the events from the second on
  let B : Set (ℕ → Fin 3 → ℝ) := {y | noExit (stepW T) (exW κ c) nev (stepW T (y 0) (coords k)) fun i => y (i + 1)}
  have hBm : MeasurableSet B := by
    refine (noExit_measurable (stepW_measurable hT) (exW_measurable κ c) nev).preimage
      (f := fun y : ℕ → Fin 3 → ℝ => (stepW T (y 0) (coords k), fun i => y (i + 1))) ?_
    have h1 : Measurable fun y : ℕ → Fin 3 → ℝ => (y 0, coords k) := (measurable_pi_apply 0).prodMk measurable_const
    exact ((stepW_measurable hT).comp h1).prodMk (measurable_pi_lambda _ fun i => measurable_pi_apply (i + 1))
  have hsub : {ω | stuckEvent nev d (t ω) j ≠ 0} ⊆ D ⁻¹' B := by
    intro ω hω
    have hmu' : 0 < (S ω).mu_scat := by rw [hS.mu_scat]; exact hmu
    obtain ⟨g0, g1, g2⟩ := sim_walk hp0 (ht ω) hmu' j
    obtain ⟨t', ht', hdir, -⟩ := simulate_facts (H ω) nev
    rw [ht ω] at ht'
    injection ht' with ht'
    subst ht'
    have hturn : ∀ e, e < nev → coords ((t ω).direction (e + 1) j) = stepW T (D ω e) (coords ((t ω).direction e j)) := by
      intro e he
      rw [g1 e he, hS.min_angle, hS.draw_theta, hS.rand_phi]
      rfl
    have hkz : ∀ i j, i < nev + 1 → |((t ω).direction i j).z| ≤ 1 := by
      intro i j hi
      have := hdir i j hi
      simp only [V3.normSq, V3.dot] at this
      rw [← sq_le_one_iff_abs_le_one]
      nlinarith [mul_self_nonneg ((t ω).direction i j).x, mul_self_nonneg ((t ω).direction i j).y]
    show noExit _ _ _ _ _
    cases nev with
    | zero => trivial
    | succ nev =>
      have := noExit_of_stuck hnm hle hth hkz hmu (T := T) (D ω) (fun e => by
        have := ((H ω).rand_step e j).2
        rwa [hS.rand_step] at this) hturn (fun e he => by
          have := g2 e he
          rw [hS.mu_scat, hS.rand_step] at this
          exact this) hω (nev + 1) 1 le_rfl (by omega)
      rw [hturn 0 (Nat.succ_pos nev), g0, hk1] at this
      have e : (fun i => D ω (i + 1)) = fun i => D ω (1 + i) := by
        funext i; rw [add_comm]
      rw [e]
      exact this
  have hle2 : P {ω | stuckEvent nev d (t ω) j ≠ 0} ≤ ENNReal.ofReal (A * r ^ nev) := by
    refine (measure_mono hsub).trans ?_
    rw [← Measure.map_apply hDm hBm, hlaw, stream_split draws3 hBm]
    calc _ = ∫⁻ u, trapped draws3 (stepW T) (exW κ c) nev (stepW T u (coords k)) ∂draws3 := rfl
      _ ≤ ∫⁻ _, ENNReal.ofReal (A * r ^ nev) ∂draws3 := lintegral_mono fun u => hbound nev _ (stepW_sphere T u _ hkS)
      _ = _ := by simp
  exact ENNReal.toReal_le_of_le_ofReal (by positivity) hle2

/-- **C127, the warning.**  With enough events the warning that light is stuck disappears: the probability that any photon at all is stuck,
and hence that `calc_outcome_weights` warns, tends to zero with the number of events. -/
theorem C127_warning_disappears {n : ℕ} (p : Fin (n + 1) → ℝ) (m mu : ℝ) (d : DetArgs) {nt : ℕ} {Ω : Type} [MeasurableSpace Ω]
    (P : Measure Ω) [IsProbabilityMeasure P] (U : (ℕ × Fin nt) × Fin 3 → Ω → ℝ) (hU : UniformDraws P U) (a : Args nt)
    (S : Ω → Sampling nt (n + 1)) (hS : FromDraws U p m mu S) (H : ∀ ω, FilmRun a (S ω) d) (hle : d.n_medium ≤ d.optics.n_tir)
    (hth : d.z_low < d.thickness) (t : ℕ → Ω → Trajs nt) (ht : ∀ nev ω, simulate (nev + 1) a (S ω) = .ok (t nev ω))
    (ri ti : ℕ → Ω → Fin nt → ℕ) (inc : ℕ → Ω → Fin nt → ℝ) (hinc : ∀ nev ω, 0 < ∑ j, inc nev ω j) :
    Tendsto (fun nev => P.real {ω | ∃ j, stuckEvent nev d (t nev ω) j ≠ 0}) atTop (𝓝 0) ∧
    Tendsto (fun nev => P.real {ω | (Weights.calcOutcomeWeights (fun j => fin (inc nev ω j)) (ri nev ω) (ti nev ω)
      (stuckEvent nev d (t nev ω)) (fun (e : Fin (nev + 1)) j => fin ((t nev ω).weight e j))).warn}) atTop (𝓝 0) := by
  obtain ⟨ω0⟩ : Nonempty Ω := by
    by_contra h
    rw [not_nonempty_iff] at h
    have := (inferInstance : IsProbabilityMeasure P).measure_univ
    rw [Set.eq_empty_of_isEmpty (Set.univ : Set Ω), measure_empty] at this
    exact zero_ne_one this
  have H0 := H ω0
  obtain ⟨A, r, hA, hr0, hr1, hb⟩ := C127_light_leaves p m mu d (by have := H0.phase; rwa [hS.phase] at this)
    (by have := H0.min_angle; rwa [hS.min_angle] at this) (by have := H0.phase_pos; rwa [hS.phase, hS.min_angle] at this)
    (by have := H0.mu_scat; rwa [hS.mu_scat] at this) H0.medium_pos hle hth
  have hany : ∀ nev, P.real {ω | ∃ j, stuckEvent nev d (t nev ω) j ≠ 0} ≤ nt * (A * r ^ nev) := by
    intro nev
    have e : {ω | ∃ j, stuckEvent nev d (t nev ω) j ≠ 0} = ⋃ j, {ω | stuckEvent nev d (t nev ω) j ≠ 0} := by
      ext ω; simp
    rw [e]
    refine (measureReal_iUnion_fintype_le _).trans ?_
    refine (Finset.sum_le_sum fun j _ => hb P U hU a S hS H nev (t nev) (ht nev) j).trans ?_
    simp
  have hlim : Tendsto (fun nev => (nt : ℝ) * (A * r ^ nev)) atTop (𝓝 0) := by
    have := ((tendsto_pow_atTop_nhds_zero_of_lt_one hr0.le hr1).const_mul A).const_mul (nt : ℝ)
    simpa using this
  refine ⟨squeeze_zero (fun _ => measureReal_nonneg) hany hlim,
    squeeze_zero (fun _ => measureReal_nonneg) (fun nev => le_trans (measureReal_mono ?_) (hany nev)) hlim⟩
  intro ω hω
  by_contra h
  have h0 : ∀ j, stuckEvent nev d (t nev ω) j = 0 := by
    intro j
    by_contra h'
    exact h ⟨j, h'⟩
  obtain ⟨s, hs, hw⟩ := C14_stuck_warning (inc nev ω) (ri nev ω) (ti nev ω) (stuckEvent nev d (t nev ω))
    (fun (e : Fin (nev + 1)) j => (t nev ω).weight e j) (hinc nev ω)
  have hs0 : ∀ j, s j = 0 := by
    intro j
    have := hs j
    simp only [Weights.calcOutcomeWeights] at this
    rw [Weights.sel_fin, fin_mul, fin_inj] at this
    rw [← this]
    simp [Root.sel, h0 j]
  have := hw.mp hω
  simp only [hs0, Finset.sum_const_zero] at this
  linarith [hinc nev ω]

/-- Non-vacuity of C127: a film of thickness 10 with isotropic scattering on a grid of three angles, lit along the normal. -/
example : ∃ (Ω : Type) (_ : MeasurableSpace Ω) (P : Measure Ω) (U : (ℕ × Fin 1) × Fin 3 → Ω → ℝ) (S : Ω → Sampling 1 3)
    (t : ℕ → Ω → Trajs 1), IsProbabilityMeasure P ∧ UniformDraws P U ∧ FromDraws U (fun _ : Fin 3 => 1) 0 1 S ∧
    (∀ ω, FilmRun demoArgs (S ω) (demoDet none)) ∧ (demoDet none).n_medium ≤ (demoDet none).optics.n_tir ∧
    (demoDet none).z_low < (demoDet none).thickness ∧ ∀ nev ω, simulate (nev + 1) demoArgs (S ω) = .ok (t nev ω) := by
  obtain ⟨Ω, mΩ, P, U, hP, hU, hr⟩ := uniformDraws_in_range ((ℕ × Fin 1) × Fin 3)
  have H : ∀ ω, FilmRun demoArgs { demoSampling 1 with
      draw_theta := fun i j => choiceIndex (probTheta (fun _ : Fin 3 => 1) 0) (U ((i, j), 0) ω)
      rand_phi := fun i j => U ((i, j), 1) ω
      rand_step := fun i j => U ((i, j), 2) ω } (demoDet none) := fun ω =>
    { demo_filmRun 1 zero_le_one none with
      rand_step := fun i j => hr ((i, j), 2) ω
      rand_phi := fun i j => hr ((i, j), 1) ω }
  choose t ht using fun (nev : ℕ) ω => simulate_facts (H ω) nev
  refine ⟨Ω, mΩ, P, U, _, t, hP, hU, ⟨fun _ => rfl, fun _ => rfl, fun _ => rfl, fun _ _ _ => rfl, fun _ _ _ => rfl, fun _ _ _ => rfl⟩, H, ?_,
    by norm_num [demoDet], fun nev ω => (ht nev ω).1⟩
  norm_num [demoDet, DetArgs.optics, Weights.nTir]

end Film
end Verif.Props
