import Verif.Props.Init
import Verif.Props.Polarization
import Verif.SpecStat
import Mathlib.MeasureTheory.Integral.Pi
import Mathlib.MeasureTheory.Integral.Prod
import Mathlib.MeasureTheory.Integral.IntervalIntegral.Periodic
import Mathlib.MeasureTheory.Integral.IntervalIntegral.FundThmCalculus
import Mathlib.Analysis.SpecialFunctions.Integrals.Basic
import Mathlib.Probability.StrongLaw

/-!
# C161: the phases of the incident fields
-/

namespace Verif.Props
open MeasureTheory Verif.Traj Verif.Init Verif.Spec Verif.Polar
noncomputable section

/-- the two draws (for the x and for the y component) of one trajectory -/
def phaseDraws : Measure (ℝ × ℝ) := unif.prod unif

/-- the draws of all trajectories, independent of each other -/
def allPhaseDraws (nt : ℕ) : Measure (Fin nt → ℝ × ℝ) := Measure.pi fun _ => phaseDraws

instance : IsProbabilityMeasure phaseDraws := by unfold phaseDraws; infer_instance
instance (nt : ℕ) : IsProbabilityMeasure (allPhaseDraws nt) := by unfold allPhaseDraws; infer_instance

/-- light of unit amplitude at the phase `u` (in turns) -/
def cis (u : ℝ) : ℂ := Complex.exp (((2 * Real.pi * u : ℝ) : ℂ) * Complex.I)

theorem cis_normSq (u : ℝ) : Complex.normSq (cis u) = 1 := by
  rw [cis, Complex.normSq_eq_norm_sq, Complex.norm_exp_ofReal_mul_I]; norm_num

theorem cis_add (u v : ℝ) : cis (u + v) = cis u * cis v := by
  rw [cis, cis, cis, ← Complex.exp_add]; congr 1; push_cast; ring

theorem cis_one : cis 1 = 1 := by
  rw [cis]; rw [show (((2 * Real.pi * 1 : ℝ) : ℂ) * Complex.I) = 2 * Real.pi * Complex.I by push_cast; ring]
  exact Complex.exp_two_pi_mul_I

theorem cis_zero : cis 0 = 1 := by simp [cis]

theorem cis_measurable : Measurable cis := by
  have : Continuous cis := by unfold cis; fun_prop
  exact this.measurable

theorem unif_integral (f : ℝ → ℂ) : ∫ u, f u ∂unif = ∫ u in (0:ℝ)..1, f u := by
  rw [unif, intervalIntegral.integral_of_le zero_le_one, integral_Ico_eq_integral_Ioc]

theorem integral_cis : ∫ u, cis u ∂unif = 0 := by
  rw [unif_integral]
  have hc : (2 * Real.pi * Complex.I : ℂ) ≠ 0 := by
    simp [Real.pi_ne_zero]
  have : ∀ u : ℝ, cis u = Complex.exp ((2 * Real.pi * Complex.I) * u) := by
    intro u; unfold cis; congr 1; push_cast; ring
  simp only [this]
  rw [integral_exp_mul_complex hc]
  simp [Complex.exp_two_pi_mul_I]

/-! ### fields times a phase -/

theorem localField_smul (S1 S2 S3 S4 : ℕ → ℂ) (c : ℂ) (E : ℂ × ℂ) (n : ℕ) :
    localField S1 S2 S3 S4 (c * E.1, c * E.2) n = (c * (localField S1 S2 S3 S4 E n).1, c * (localField S1 S2 S3 S4 E n).2) := by
  induction n with
  | zero => rfl
  | succ n ih =>
    rw [localField, ih, localField, mieStep, mieStep]
    ext <;> simp only <;> ring

theorem turnsC_smul (st ct sp cp : ℕ → ℝ) (c : ℂ) (v : C3) (i : ℕ) :
    turnsC st ct sp cp i (C3.smul c v) = C3.smul c (turnsC st ct sp cp i v) := by
  induction i with
  | zero => rfl
  | succ i ih =>
    rw [turnsC, ih, turnsC, turnC, turnC, C3.smul, C3.smul]
    ext <;> simp only <;> ring

theorem calcFields_smul (nev : ℕ) (En : ℕ → C3) (S1 S2 S3 S4 : ℕ → ℂ) (st ct sp cp : ℕ → ℝ) (k : ℝ) (step : ℕ → ℝ) (m : ℕ)
    {c : ℂ} (hc : Complex.normSq c = 1) :
    calcFields nev (fun n => C3.smul c (En n)) S1 S2 S3 S4 st ct sp cp k step m =
      C3.smul c (calcFields nev En S1 S2 S3 S4 st ct sp cp k step m) := by
  rw [calcFields_row, calcFields_row, ← normalizeC_phase hc]
  congr 1
  have hl : ∀ m, fieldsLocal nev (fun n => C3.smul c (En n)) S1 S2 S3 S4 m = C3.smul c (fieldsLocal nev En S1 S2 S3 S4 m) := by
    intro m
    match m with
    | 0 => rfl
    | 1 => rfl
    | n + 2 =>
      simp only [fieldsLocal]
      split
      · rw [show ((C3.smul c (En 0)).x, (C3.smul c (En 0)).y) = (c * (En 0).x, c * (En 0).y) from rfl,
          localField_smul _ _ _ _ c ((En 0).x, (En 0).y)]
        rfl
      · rfl
  cases m with
  | zero => simp only [fieldsPhase, hl, turnsC_smul]; simp only [C3.smul]; ext <;> simp only <;> ring
  | succ m => simp only [fieldsPhase, hl, turnsC_smul]; simp only [C3.smul]; ext <;> simp only <;> ring

/-! ### measurability -/

/-- all three components are measurable -/
def MeasC {X : Type} [MeasurableSpace X] (f : X → C3) : Prop :=
  Measurable (fun x => (f x).x) ∧ Measurable (fun x => (f x).y) ∧ Measurable (fun x => (f x).z)

variable {X : Type} [MeasurableSpace X]

theorem MeasC.normSq {f : X → C3} (h : MeasC f) : Measurable fun x => (f x).normSq := by
  obtain ⟨h1, h2, h3⟩ := h
  have n : Measurable Complex.normSq := Complex.continuous_normSq.measurable
  exact ((n.comp h1).add (n.comp h2)).add (n.comp h3)

theorem MeasC.normalize {f : X → C3} (h : MeasC f) : MeasC fun x => normalizeC (f x) := by
  have hm : Measurable fun x => Real.sqrt (f x).normSq := Real.continuous_sqrt.measurable.comp h.normSq
  have hd : Measurable fun x => (((if Real.sqrt (f x).normSq = 0 then 1 else Real.sqrt (f x).normSq : ℝ)) : ℂ) :=
    Complex.measurable_ofReal.comp (Measurable.ite (hm (measurableSet_singleton 0)) measurable_const hm)
  exact ⟨h.1.div hd, h.2.1.div hd, h.2.2.div hd⟩

theorem MeasC.turns {f : X → C3} (h : MeasC f) (st ct sp cp : ℕ → ℝ) (i : ℕ) : MeasC fun x => turnsC st ct sp cp i (f x) := by
  induction i with
  | zero => exact h
  | succ i ih =>
    obtain ⟨h1, h2, h3⟩ := ih
    simp only [turnsC, turnC]
    exact ⟨by fun_prop, by fun_prop, by fun_prop⟩

theorem meas_local {f g : X → ℂ} (hf : Measurable f) (hg : Measurable g) (S1 S2 S3 S4 : ℕ → ℂ) (n : ℕ) :
    Measurable (fun x => (localField S1 S2 S3 S4 (f x, g x) n).1) ∧ Measurable (fun x => (localField S1 S2 S3 S4 (f x, g x) n).2) := by
  induction n with
  | zero => exact ⟨hf, hg⟩
  | succ n ih =>
    obtain ⟨h1, h2⟩ := ih
    simp only [localField, mieStep]
    exact ⟨by fun_prop, by fun_prop⟩

theorem MeasC.calc {F : X → ℕ → C3} (h : ∀ n, MeasC fun x => F x n) (nev : ℕ) (S1 S2 S3 S4 : ℕ → ℂ) (st ct sp cp : ℕ → ℝ) (k : ℝ)
    (step : ℕ → ℝ) (m : ℕ) : MeasC fun x => calcFields nev (F x) S1 S2 S3 S4 st ct sp cp k step m := by
  simp only [calcFields_row]
  apply MeasC.normalize
  have hl : ∀ m, MeasC fun x => fieldsLocal nev (F x) S1 S2 S3 S4 m := by
    intro m
    match m with
    | 0 => exact h 0
    | 1 => exact h 1
    | n + 2 =>
      simp only [fieldsLocal]
      by_cases hn : n + 2 ≤ nev
      · simp only [if_pos hn]
        obtain ⟨a, b⟩ := meas_local (h 0).1 (h 0).2.1 S1 S2 S3 S4 (n + 1)
        exact ⟨a, b, (h (n + 2)).2.2⟩
      · simp only [if_neg hn]; exact h (n + 2)
  cases m with
  | zero => exact (hl 0).turns st ct sp cp _
  | succ m =>
    obtain ⟨a, b, c⟩ := (hl (m + 1)).turns st ct sp cp (min (m + 1 - 1) (nev - 1))
    simp only [fieldsPhase]
    exact ⟨a.mul_const _, b.mul_const _, c.mul_const _⟩

/-! ### the initial fields -/

theorem initFields_pol (u v : ℝ) (n : ℕ) : initFields true false u v n = C3.smul (cis u) (initFields true true 0 0 n) := by
  unfold initFields
  have h0 : Real.sqrt (C3.normSq ⟨cis u, 0, 0⟩) = 1 := by simp [C3.normSq, cis_normSq]
  have h1 : Real.sqrt (C3.normSq ⟨1, 0, 0⟩) = 1 := by simp [C3.normSq]
  by_cases hn : n ≤ 1
  · simp only [if_pos hn, C3.smul, if_true, Bool.false_eq_true, if_false]
    rw [← cis]
    simp only [normalizeC, Complex.ofReal_zero, zero_mul, Complex.exp_zero, h0, h1]
    simp
  · simp [if_neg hn, C3.smul]

theorem initFields_unpol (u v : ℝ) {n : ℕ} (hn : n ≤ 1) :
    initFields false false u v n = ⟨cis u / (Real.sqrt 2 : ℝ), cis v / (Real.sqrt 2 : ℝ), 0⟩ := by
  unfold initFields
  have h0 : Real.sqrt (C3.normSq ⟨cis u, cis v, 0⟩) = Real.sqrt 2 := by
    simp only [C3.normSq, cis_normSq, Complex.normSq_zero]; norm_num
  simp only [if_pos hn, Bool.false_eq_true, if_false]
  rw [← cis, ← cis]
  simp only [normalizeC, h0]
  rw [if_neg (by positivity)]

theorem initFields_shift (pol : Bool) (u v : ℝ) (n : ℕ) :
    initFields pol false u v n = C3.smul (cis u) (initFields pol false 0 (v - u) n) := by
  cases pol with
  | true => rw [initFields_pol u v, initFields_pol 0]; simp [C3.smul, cis_zero]
  | false =>
    by_cases hn : n ≤ 1
    · rw [initFields_unpol u v hn, initFields_unpol 0 _ hn, cis_zero, C3.smul]
      have : cis v = cis u * cis (v - u) := by rw [← cis_add]; congr 1; ring
      ext
      · simp only; ring
      · simp only [this]; ring
      · simp
    · unfold initFields; simp [if_neg hn, C3.smul]

theorem initFields_periodic (pol : Bool) (v : ℝ) (n : ℕ) : initFields pol false 0 (v + 1) n = initFields pol false 0 v n := by
  cases pol with
  | true => rw [initFields_pol, initFields_pol]
  | false =>
    by_cases hn : n ≤ 1
    · rw [initFields_unpol _ _ hn, initFields_unpol _ _ hn, cis_add, cis_one, mul_one]
    · unfold initFields; simp [if_neg hn]

theorem initFields_meas (pol : Bool) (n : ℕ) : MeasC fun x : ℝ × ℝ => initFields pol false x.1 x.2 n := by
  cases pol with
  | true =>
    simp only [initFields_pol]
    have := (cis_measurable.comp measurable_fst : Measurable fun x : ℝ × ℝ => cis x.1)
    exact ⟨this.mul_const _, this.mul_const _, this.mul_const _⟩
  | false =>
    by_cases hn : n ≤ 1
    · simp only [initFields_unpol _ _ hn]
      have h1 := (cis_measurable.comp measurable_fst : Measurable fun x : ℝ × ℝ => cis x.1)
      have h2 := (cis_measurable.comp measurable_snd : Measurable fun x : ℝ × ℝ => cis x.2)
      exact ⟨h1.div_const _, h2.div_const _, measurable_const⟩
    · unfold initFields; simp only [if_neg hn]; exact ⟨measurable_const, measurable_const, measurable_const⟩

/-! ### simulated fields -/

/-- what happens to the light of one trajectory: scattering matrices, angles and steps -/
structure ScatHistory where
  S1 : ℕ → ℂ
  S2 : ℕ → ℂ
  S3 : ℕ → ℂ
  S4 : ℕ → ℂ
  st : ℕ → ℝ
  ct : ℕ → ℝ
  sp : ℕ → ℝ
  cp : ℕ → ℝ
  step : ℕ → ℝ

/-- The fields of a simulation: each trajectory starts with the field of `initialize` for its draws, and `calc_fields` follows its history. -/
def simFields {nt : ℕ} (nev : ℕ) (k : ℝ) (H : Fin nt → ScatHistory) (pol coh : Bool) (x : Fin nt → ℝ × ℝ) : ℕ → Fin nt → C3 :=
  fun e j => calcFields nev (initFields pol coh (x j).1 (x j).2) (H j).S1 (H j).S2 (H j).S3 (H j).S4 (H j).st (H j).ct (H j).sp (H j).cp k
    (H j).step e

variable {nt : ℕ}

/-- the field of one trajectory as a function of its draws -/
def oneField (nev : ℕ) (k : ℝ) (H : ScatHistory) (pol : Bool) (e : ℕ) (x : ℝ × ℝ) : C3 :=
  calcFields nev (initFields pol false x.1 x.2) H.S1 H.S2 H.S3 H.S4 H.st H.ct H.sp H.cp k H.step e

theorem oneField_meas (nev : ℕ) (k : ℝ) (H : ScatHistory) (pol : Bool) (e : ℕ) : MeasC (oneField nev k H pol e) :=
  MeasC.calc (fun n => initFields_meas pol n) ..

theorem oneField_shift (nev : ℕ) (k : ℝ) (H : ScatHistory) (pol : Bool) (e : ℕ) (u v : ℝ) :
    oneField nev k H pol e (u, v) = C3.smul (cis u) (oneField nev k H pol e (0, v - u)) := by
  unfold oneField
  rw [← calcFields_smul _ _ _ _ _ _ _ _ _ _ _ _ _ (cis_normSq u)]
  congr 1
  funext n
  exact initFields_shift pol u v n

theorem oneField_periodic (nev : ℕ) (k : ℝ) (H : ScatHistory) (pol : Bool) (e : ℕ) (v : ℝ) :
    oneField nev k H pol e (0, v + 1) = oneField nev k H pol e (0, v) := by
  unfold oneField
  congr 1
  funext n
  exact initFields_periodic pol v n

theorem oneField_le (nev : ℕ) (k : ℝ) (H : ScatHistory) (pol : Bool) (e : ℕ) (x : ℝ × ℝ) : (oneField nev k H pol e x).normSq ≤ 1 := by
  unfold oneField calcFields
  have h := normSq_normalizeC (fieldsPhase (fieldsGlobal nev (fieldsLocal nev (initFields pol false x.1 x.2) H.S1 H.S2 H.S3 H.S4) H.st H.ct
    H.sp H.cp) k H.step e)
  by_cases h0 : (fieldsPhase (fieldsGlobal nev (fieldsLocal nev (initFields pol false x.1 x.2) H.S1 H.S2 H.S3 H.S4) H.st H.ct
    H.sp H.cp) k H.step e).normSq = 0
  · rw [h.2 h0, h0]; exact zero_le_one
  · rw [h.1 h0]

/-- a component of a field that turns with the common phase averages to zero -/
theorem mean_zero {f : ℝ × ℝ → ℂ} (hs : ∀ u v, f (u, v) = cis u * f (0, v - u)) (hp : ∀ v, f (0, v + 1) = f (0, v))
    (hi : Integrable f phaseDraws) : ∫ x, f x ∂phaseDraws = 0 := by
  unfold phaseDraws at hi ⊢
  rw [integral_prod _ hi]
  have hper : Function.Periodic (fun v => f (0, v)) 1 := hp
  have : ∀ u, ∫ v, f (u, v) ∂unif = cis u * ∫ v in (0:ℝ)..1, f (0, v) := by
    intro u
    simp only [hs u]
    rw [integral_const_mul, unif_integral]
    congr 1
    rw [intervalIntegral.integral_comp_sub_right (fun v => f (0, v)) u]
    have := hper.intervalIntegral_add_eq (0 - u) 0
    rw [show (0 : ℝ) - u + 1 = 1 - u by ring, zero_add] at this
    exact this
  simp only [this]
  rw [integral_mul_const, integral_cis, zero_mul]

/-! ### independent sums -/

/-- the product of two functions of different coordinates averages to the product of the averages -/
theorem integral_two {g h : ℝ × ℝ → ℂ} {i j : Fin nt} (hij : i ≠ j) :
    ∫ x, g (x i) * h (x j) ∂(allPhaseDraws nt) = (∫ y, g y ∂phaseDraws) * ∫ y, h y ∂phaseDraws := by
  have key := integral_fintype_prod_eq_prod (𝕜 := ℂ) (E := fun _ : Fin nt => ℝ × ℝ) (fun l y => if l = i then g y else if l = j then h y else 1)
    (μ := fun _ => phaseDraws)
  have two : ∀ a b : ℂ, (∏ l : Fin nt, if l = i then a else if l = j then b else 1) = a * b := by
    intro a b
    rw [← Finset.mul_prod_erase _ _ (Finset.mem_univ i), if_pos rfl,
      ← Finset.mul_prod_erase _ _ (Finset.mem_erase.mpr ⟨hij.symm, Finset.mem_univ j⟩), if_neg hij.symm, if_pos rfl,
      Finset.prod_eq_one, mul_one]
    intro l hl
    simp only [Finset.mem_erase] at hl
    rw [if_neg hl.2.1, if_neg hl.1]
  have e1 : ∀ x : Fin nt → ℝ × ℝ, (∏ l, if l = i then g (x l) else if l = j then h (x l) else 1) = g (x i) * h (x j) := by
    intro x
    rw [← two]
    refine Finset.prod_congr rfl fun l _ => ?_
    split_ifs with a b
    · rw [a]
    · rw [b]
    · rfl
  simp only [e1] at key
  unfold allPhaseDraws
  rw [key, ← two]
  refine Finset.prod_congr rfl fun l _ => ?_
  split_ifs <;> simp


theorem integrable_bdd {f : (Fin nt → ℝ × ℝ) → ℂ} (hm : Measurable f) (C : ℝ) (hb : ∀ x, ‖f x‖ ≤ C) : Integrable f (allPhaseDraws nt) :=
  Integrable.of_bound hm.aestronglyMeasurable C (Filter.Eventually.of_forall hb)

/-- Independent amplitudes that average to zero do not interfere on average. -/
theorem no_interference (g : Fin nt → ℝ × ℝ → ℂ) (hm : ∀ j, Measurable (g j)) (C : ℝ) (hb : ∀ j y, ‖g j y‖ ≤ C)
    (h0 : ∀ j, ∫ y, g j y ∂phaseDraws = 0) :
    Integrable (fun x => Complex.normSq (∑ j, g j (x j))) (allPhaseDraws nt) ∧
    Integrable (fun x => ∑ j, Complex.normSq (g j (x j))) (allPhaseDraws nt) ∧
    ∫ x, Complex.normSq (∑ j, g j (x j)) ∂(allPhaseDraws nt) = ∫ x, ∑ j, Complex.normSq (g j (x j)) ∂(allPhaseDraws nt) := by
  have hmx : ∀ j, Measurable fun x : Fin nt → ℝ × ℝ => g j (x j) := fun j => (hm j).comp (measurable_pi_apply j)
  have hcj : Measurable (starRingEnd ℂ) := Complex.continuous_conj.measurable
  have hint : ∀ j k, Integrable (fun x : Fin nt → ℝ × ℝ => g j (x j) * (starRingEnd ℂ) (g k (x k))) (allPhaseDraws nt) := by
    intro j k
    refine integrable_bdd ((hmx j).mul (hcj.comp (hmx k))) (C * C) fun x => ?_
    rw [norm_mul, RCLike.norm_conj]
    exact mul_le_mul (hb j _) (hb k _) (norm_nonneg _) ((norm_nonneg _).trans (hb j (x j)))
  have e1 : ∀ x : Fin nt → ℝ × ℝ, ((Complex.normSq (∑ j, g j (x j)) : ℝ) : ℂ) = ∑ j, ∑ k, g j (x j) * (starRingEnd ℂ) (g k (x k)) := by
    intro x
    rw [← Complex.mul_conj, map_sum, Finset.sum_mul_sum]
  have e2 : ∀ x : Fin nt → ℝ × ℝ, ((∑ j, Complex.normSq (g j (x j)) : ℝ) : ℂ) = ∑ j, g j (x j) * (starRingEnd ℂ) (g j (x j)) := by
    intro x
    push_cast
    exact Finset.sum_congr rfl fun j _ => (Complex.mul_conj _).symm
  have i1 : Integrable (fun x => ((Complex.normSq (∑ j, g j (x j)) : ℝ) : ℂ)) (allPhaseDraws nt) := by
    simp only [e1]
    exact integrable_finsetSum _ fun j _ => integrable_finsetSum _ fun k _ => hint j k
  have i2 : Integrable (fun x => ((∑ j, Complex.normSq (g j (x j)) : ℝ) : ℂ)) (allPhaseDraws nt) := by
    simp only [e2]
    exact integrable_finsetSum _ fun j _ => hint j j
  refine ⟨by simpa using i1.re, by simpa using i2.re, ?_⟩
  apply Complex.ofReal_injective
  rw [← integral_complex_ofReal, ← integral_complex_ofReal]
  simp only [e1, e2]
  rw [integral_finsetSum _ fun j _ => integrable_finsetSum _ fun k _ => hint j k, integral_finsetSum _ fun j _ => hint j j]
  refine Finset.sum_congr rfl fun j _ => ?_
  rw [integral_finsetSum _ fun k _ => hint j k]
  refine Finset.sum_eq_single j (fun k _ hk => ?_) (fun h => absurd (Finset.mem_univ j) h)
  rw [integral_two (g := g j) (h := fun y => (starRingEnd ℂ) (g k y)) hk.symm, h0, zero_mul]

/-- the amplitude, along one axis, of the light of trajectory `j` that is reflected -/
def amp (c : C3 → ℂ) (nev : ℕ) (k : ℝ) (H : Fin nt → ScatHistory) (pol : Bool) (ri : Fin nt → ℕ) (refl : Fin nt → ℝ) (j : Fin nt) (y : ℝ × ℝ) : ℂ :=
  if 0 < ri j then ((Real.sqrt (refl j * nt) : ℝ) : ℂ) * c (oneField nev k (H j) pol (ri j) y) else 0

/-- Coordinates of a vector. -/
structure IsAxis (c : C3 → ℂ) : Prop where
  meas : ∀ {X : Type} [MeasurableSpace X] {f : X → C3}, MeasC f → Measurable fun x => c (f x)
  smul : ∀ a v, c (C3.smul a v) = a * c v
  le : ∀ v, Complex.normSq (c v) ≤ v.normSq

theorem axis_x : IsAxis C3.x := ⟨fun h => h.1, fun _ _ => rfl, fun v => by
  unfold C3.normSq; have := Complex.normSq_nonneg v.y; have := Complex.normSq_nonneg v.z; linarith⟩
theorem axis_y : IsAxis C3.y := ⟨fun h => h.2.1, fun _ _ => rfl, fun v => by
  unfold C3.normSq; have := Complex.normSq_nonneg v.x; have := Complex.normSq_nonneg v.z; linarith⟩
theorem axis_z : IsAxis C3.z := ⟨fun h => h.2.2, fun _ _ => rfl, fun v => by
  unfold C3.normSq; have := Complex.normSq_nonneg v.x; have := Complex.normSq_nonneg v.y; linarith⟩

theorem axis_norm {c : C3 → ℂ} (hc : IsAxis c) (nev : ℕ) (k : ℝ) (H : ScatHistory) (pol : Bool) (e : ℕ) (y : ℝ × ℝ) :
    ‖c (oneField nev k H pol e y)‖ ≤ 1 := by
  have := (hc.le _).trans (oneField_le nev k H pol e y)
  rw [Complex.normSq_eq_norm_sq] at this
  nlinarith [norm_nonneg (c (oneField nev k H pol e y))]

theorem amp_average {c : C3 → ℂ} (hc : IsAxis c) (nev : ℕ) (k : ℝ) (H : Fin nt → ScatHistory) (pol : Bool) (ri : Fin nt → ℕ)
    (refl : Fin nt → ℝ) :
    let g := amp c nev k H pol ri refl
    Integrable (fun x => Complex.normSq (∑ j, g j (x j))) (allPhaseDraws nt) ∧
    Integrable (fun x => ∑ j, Complex.normSq (g j (x j))) (allPhaseDraws nt) ∧
    ∫ x, Complex.normSq (∑ j, g j (x j)) ∂(allPhaseDraws nt) = ∫ x, ∑ j, Complex.normSq (g j (x j)) ∂(allPhaseDraws nt) := by
  intro g
  have hm1 : ∀ j, Measurable fun y => c (oneField nev k (H j) pol (ri j) y) := fun j => hc.meas (oneField_meas ..)
  have hz : ∀ j, ∫ y, c (oneField nev k (H j) pol (ri j) y) ∂phaseDraws = 0 := by
    intro j
    refine mean_zero (fun u v => ?_) (fun v => ?_) (Integrable.of_bound (hm1 j).aestronglyMeasurable 1 (Filter.Eventually.of_forall fun y => ?_))
    · rw [oneField_shift, hc.smul]
    · rw [oneField_periodic]
    · exact axis_norm hc ..
  refine no_interference g (fun j => ?_) (∑ j, Real.sqrt (refl j * nt)) (fun j y => ?_) (fun j => ?_)
  · show Measurable fun y => amp c nev k H pol ri refl j y
    unfold amp
    by_cases h : 0 < ri j
    · simp only [if_pos h]; exact (hm1 j).const_mul _
    · simp only [if_neg h]; exact measurable_const
  · show ‖amp c nev k H pol ri refl j y‖ ≤ _
    have hs : Real.sqrt (refl j * nt) ≤ ∑ j, Real.sqrt (refl j * nt) :=
      Finset.single_le_sum (f := fun j => Real.sqrt (refl j * nt)) (fun _ _ => Real.sqrt_nonneg _) (Finset.mem_univ j)
    unfold amp
    split
    · rw [norm_mul, Complex.norm_real, Real.norm_eq_abs, abs_of_nonneg (Real.sqrt_nonneg _)]
      have := axis_norm hc nev k (H j) pol (ri j) y
      nlinarith [Real.sqrt_nonneg (refl j * nt), norm_nonneg (c (oneField nev k (H j) pol (ri j) y))]
    · rw [norm_zero]; exact (Real.sqrt_nonneg _).trans hs
  · show ∫ y, amp c nev k H pol ri refl j y ∂phaseDraws = 0
    unfold amp
    split
    · rw [integral_const_mul, hz, mul_zero]
    · simp

theorem reflField_axes (nev : ℕ) (k : ℝ) (H : Fin nt → ScatHistory) (pol : Bool) (ri : Fin nt → ℕ) (refl : Fin nt → ℝ) (x : Fin nt → ℝ × ℝ)
    (j : Fin nt) : reflField (simFields nev k H pol false x) ri refl j =
      ⟨amp C3.x nev k H pol ri refl j (x j), amp C3.y nev k H pol ri refl j (x j), amp C3.z nev k H pol ri refl j (x j)⟩ := by
  unfold reflField amp
  split <;> rfl

/-- C161.  Without `coherent`, the trajectories do not interfere on average: over the phases that `initialize` draws (independent and uniform,
two for each trajectory), the reflectance with interference that `calc_refl_phase_fields` returns has the same mean as the one it returns
without interference, whatever happened to the light of each trajectory (scattering, directions, steps, exits, reflectances), for polarised
and unpolarised incident light.  Both means exist. -/
theorem C161_incoherent (nev : ℕ) (k : ℝ) (H : Fin nt → ScatHistory) (pol : Bool) (ri : Fin nt → ℕ) (refl : Fin nt → ℝ) :
    let R := fun x => calcReflPhaseFields (simFields nev k H pol false x) ri refl
    Integrable (fun x => (R x).2.1) (allPhaseDraws nt) ∧ Integrable (fun x => (R x).2.2) (allPhaseDraws nt) ∧
      ∫ x, (R x).2.1 ∂(allPhaseDraws nt) = ∫ x, (R x).2.2 ∂(allPhaseDraws nt) := by
  intro R
  have e1 : ∀ x, (R x).2.1 = (Complex.normSq (∑ j, amp C3.x nev k H pol ri refl j (x j)) + Complex.normSq (∑ j, amp C3.y nev k H pol ri refl j (x j))
      + Complex.normSq (∑ j, amp C3.z nev k H pol ri refl j (x j))) / nt := by
    intro x
    show (calcReflPhaseFields (simFields nev k H pol false x) ri refl).2.1 = _
    rw [(phase_fields_eq _ ri refl).1, totField]
    simp only [reflField_axes, C3.normSq]
  have e2 : ∀ x, (R x).2.2 = ((∑ j, Complex.normSq (amp C3.x nev k H pol ri refl j (x j))) + (∑ j, Complex.normSq (amp C3.y nev k H pol ri refl j (x j)))
      + ∑ j, Complex.normSq (amp C3.z nev k H pol ri refl j (x j))) / nt := by
    intro x
    show (calcReflPhaseFields (simFields nev k H pol false x) ri refl).2.2 = _
    rw [(phase_fields_eq _ ri refl).2]
    simp only [reflField_axes, C3.normSq, Finset.sum_add_distrib]
  obtain ⟨x1, x2, x3⟩ := amp_average axis_x nev k H pol ri refl
  obtain ⟨y1, y2, y3⟩ := amp_average axis_y nev k H pol ri refl
  obtain ⟨z1, z2, z3⟩ := amp_average axis_z nev k H pol ri refl
  simp only [e1, e2]
  refine ⟨((x1.add y1).add z1).div_const _, ((x2.add y2).add z2).div_const _, ?_⟩
  rw [integral_div, integral_div]
  congr 1
  have add3 : ∀ f g h : (Fin nt → ℝ × ℝ) → ℝ, Integrable f (allPhaseDraws nt) → Integrable g (allPhaseDraws nt) → Integrable h (allPhaseDraws nt) →
      ∫ x, f x + g x + h x ∂(allPhaseDraws nt) = ∫ x, f x ∂(allPhaseDraws nt) + ∫ x, g x ∂(allPhaseDraws nt) + ∫ x, h x ∂(allPhaseDraws nt) := by
    intro f g h hf hg hh
    rw [integral_add (f := fun x => f x + g x) (hf.add hg) hh, integral_add hf hg]
  rw [add3 _ _ _ x1 y1 z1, add3 _ _ _ x2 y2 z2, x3, y3, z3]

/-- C161.  For polarised light the reflectance without interference does not depend on the phases drawn: the mean with interference is that
number. -/
theorem C161_incoherent_polarised (nev : ℕ) (k : ℝ) (H : Fin nt → ScatHistory) (ri : Fin nt → ℕ) (refl : Fin nt → ℝ) (x0 : Fin nt → ℝ × ℝ) :
    ∫ x, (calcReflPhaseFields (simFields nev k H true false x) ri refl).2.1 ∂(allPhaseDraws nt) =
      (calcReflPhaseFields (simFields nev k H true false x0) ri refl).2.2 := by
  rw [(C161_incoherent nev k H true ri refl).2.2]
  have : ∀ x x', (calcReflPhaseFields (simFields nev k H true false x) ri refl).2.2 =
      (calcReflPhaseFields (simFields nev k H true false x') ri refl).2.2 := by
    have base : ∀ x, (calcReflPhaseFields (simFields nev k H true false x) ri refl).2.2 =
        (∑ j, (reflField (fun e j => calcFields nev (initFields true true 0 0) (H j).S1 (H j).S2 (H j).S3 (H j).S4 (H j).st (H j).ct (H j).sp
          (H j).cp k (H j).step e) ri refl j).normSq) / nt := by
      intro x
      rw [(phase_fields_eq _ ri refl).2]
      congr 1
      refine Finset.sum_congr rfl fun j _ => ?_
      have hf : ∀ e, simFields nev k H true false x e j = C3.smul (cis (x j).1) (calcFields nev (initFields true true 0 0) (H j).S1 (H j).S2
          (H j).S3 (H j).S4 (H j).st (H j).ct (H j).sp (H j).cp k (H j).step e) := by
        intro e
        rw [← calcFields_smul _ _ _ _ _ _ _ _ _ _ _ _ _ (cis_normSq _)]
        unfold simFields
        congr 1
        funext n
        exact initFields_pol _ _ n
      unfold reflField
      split
      · simp only [hf, C3.normSq, C3.smul, Complex.normSq_mul, cis_normSq, one_mul]
      · rfl
    intro x x'; rw [base, base]
  simp only [this _ x0]
  simp

theorem amp_meas {c : C3 → ℂ} (hc : IsAxis c) (nev : ℕ) (k : ℝ) (H : Fin nt → ScatHistory) (pol : Bool) (ri : Fin nt → ℕ)
    (refl : Fin nt → ℝ) (j : Fin nt) : Measurable (amp c nev k H pol ri refl j) := by
  unfold amp
  by_cases h : 0 < ri j
  · simp only [if_pos h]; exact (hc.meas (oneField_meas ..)).const_mul _
  · simp only [if_neg h]; exact measurable_const

theorem coherent_meas (nev : ℕ) (k : ℝ) (H : Fin nt → ScatHistory) (pol : Bool) (ri : Fin nt → ℕ) (refl : Fin nt → ℝ) :
    Measurable fun x => (calcReflPhaseFields (simFields nev k H pol false x) ri refl).2.1 := by
  have n : ∀ {c : C3 → ℂ}, IsAxis c → Measurable fun x : Fin nt → ℝ × ℝ => Complex.normSq (∑ j, amp c nev k H pol ri refl j (x j)) :=
    fun hc => Complex.continuous_normSq.measurable.comp
      (Finset.measurable_sum _ fun j _ => (amp_meas hc nev k H pol ri refl j).comp (measurable_pi_apply j))
  have e1 : ∀ x, (calcReflPhaseFields (simFields nev k H pol false x) ri refl).2.1 =
      (Complex.normSq (∑ j, amp C3.x nev k H pol ri refl j (x j)) + Complex.normSq (∑ j, amp C3.y nev k H pol ri refl j (x j))
      + Complex.normSq (∑ j, amp C3.z nev k H pol ri refl j (x j))) / nt := by
    intro x
    rw [(phase_fields_eq _ ri refl).1, totField]
    simp only [reflField_axes, C3.normSq]
  simp only [e1]
  exact (((n axis_x).add (n axis_y)).add (n axis_z)).div_const _

/-- C161.  Averaging removes the interference: when the phases of polarised light are drawn again and again (runs independent of each other),
the average of the reflectances with interference tends, with probability one, to the reflectance without interference. -/
theorem C161_average_settles {Ω : Type} [MeasurableSpace Ω] (P : Measure Ω) [IsProbabilityMeasure P] (Y : ℕ → Ω → Fin nt → ℝ × ℝ)
    (hY : ∀ i, Measurable (Y i)) (hlaw : ∀ i, P.map (Y i) = allPhaseDraws nt) (hind : ProbabilityTheory.iIndepFun Y P)
    (nev : ℕ) (k : ℝ) (H : Fin nt → ScatHistory) (ri : Fin nt → ℕ) (refl : Fin nt → ℝ) (x0 : Fin nt → ℝ × ℝ) :
    ∀ᵐ ω ∂P, Filter.Tendsto (fun n : ℕ => (∑ i ∈ Finset.range n,
        (calcReflPhaseFields (simFields nev k H true false (Y i ω)) ri refl).2.1) / n) Filter.atTop
      (nhds (calcReflPhaseFields (simFields nev k H true false x0) ri refl).2.2) := by
  have hm := coherent_meas nev k H true ri refl
  have hint := (C161_incoherent nev k H true ri refl).1
  rw [← hlaw 0] at hint
  have hi0 := hint.comp_measurable (hY 0)
  have hmean := C161_incoherent_polarised nev k H ri refl x0
  rw [← hlaw 0, integral_map (hY 0).aemeasurable hm.aestronglyMeasurable] at hmean
  rw [← hmean]
  exact ProbabilityTheory.strong_law_ae_real (fun i ω => (calcReflPhaseFields (simFields nev k H true false (Y i ω)) ri refl).2.1) hi0
    (fun i j hij => (hind.indepFun hij).comp hm hm)
    fun i => ⟨(hm.comp (hY i)).aemeasurable, (hm.comp (hY 0)).aemeasurable, by
      show P.map ((fun x => (calcReflPhaseFields (simFields nev k H true false x) ri refl).2.1) ∘ Y i) =
        P.map ((fun x => (calcReflPhaseFields (simFields nev k H true false x) ri refl).2.1) ∘ Y 0)
      rw [← Measure.map_map hm (hY i), ← Measure.map_map hm (hY 0), hlaw i, hlaw 0]⟩

/-- Non-vacuity of C161_average_settles: such runs exist. -/
example : ProbabilityTheory.iIndepFun (fun (i : ℕ) (ω : ℕ → Fin 2 → ℝ × ℝ) => ω i) (Measure.infinitePi fun _ => allPhaseDraws 2) ∧
    ∀ i, (Measure.infinitePi fun _ : ℕ => allPhaseDraws 2).map (fun ω => ω i) = allPhaseDraws 2 :=
  ⟨ProbabilityTheory.iIndepFun_infinitePi (X := fun _ x => x) fun _ => measurable_id,
    fun i => (measurePreserving_eval_infinitePi (fun _ => allPhaseDraws 2) i).map_eq⟩

/-- C161.  The mean of the reflectance with interference is the sum of the reflectances of the reflected trajectories, if the light of none of
them is extinguished by the scattering matrices (its field at the exit is not zero, hence of norm 1 after `calc_fields`). -/
theorem C161_mean_reflectance (nev : ℕ) (k : ℝ) (H : Fin nt → ScatHistory) (pol : Bool) (ri : Fin nt → ℕ) (refl : Fin nt → ℝ)
    (h0 : ∀ j, 0 ≤ refl j) (hn : 0 < nt) (hE : ∀ x j, 0 < ri j → (simFields nev k H pol false x (ri j) j).normSq ≠ 0) :
    ∫ x, (calcReflPhaseFields (simFields nev k H pol false x) ri refl).2.1 ∂(allPhaseDraws nt) =
      ∑ j ∈ Finset.univ.filter (fun j => 0 < ri j), refl j := by
  rw [(C161_incoherent nev k H pol ri refl).2.2]
  have : ∀ x, (calcReflPhaseFields (simFields nev k H pol false x) ri refl).2.2 = ∑ j ∈ Finset.univ.filter (fun j => 0 < ri j), refl j := by
    intro x
    refine ((C61_incoherent_sum _ ri refl h0 hn).2 fun j hj => ?_).1
    have h := hE x j hj
    unfold simFields calcFields at h ⊢
    by_contra h1
    exact h (by
      have h2 := normSq_normalizeC (fieldsPhase (fieldsGlobal nev (fieldsLocal nev (initFields pol false (x j).1 (x j).2) (H j).S1 (H j).S2
        (H j).S3 (H j).S4) (H j).st (H j).ct (H j).sp (H j).cp) k (H j).step (ri j))
      by_cases h3 : (fieldsPhase (fieldsGlobal nev (fieldsLocal nev (initFields pol false (x j).1 (x j).2) (H j).S1 (H j).S2
        (H j).S3 (H j).S4) (H j).st (H j).ct (H j).sp (H j).cp) k (H j).step (ri j)).normSq = 0
      · rw [h2.2 h3]; exact h3
      · exact absurd (h2.1 h3) h1)
  simp only [this]
  simp

/-- Non-vacuity of C161_mean_reflectance: unscattered light of one trajectory. -/
example (x : Fin 1 → ℝ × ℝ) : (simFields 1 0 (fun _ => ⟨0, 0, 0, 0, 0, 0, 0, 0, 0⟩) false false x 1 0).normSq ≠ 0 := by
  have hs : (0 : ℝ) < Real.sqrt 2 := by positivity
  have hE := initFields_unpol (x 0).1 (x 0).2 (n := 1) le_rfl
  have hN : Complex.normSq ((Real.sqrt 2 : ℝ) : ℂ) = 2 := by rw [Complex.normSq_ofReal, Real.mul_self_sqrt (by norm_num)]
  have h1 : (initFields false false (x 0).1 (x 0).2 1).normSq = 1 := by
    rw [hE]; simp only [C3.normSq, Complex.normSq_div, cis_normSq, hN, Complex.normSq_zero]; norm_num
  show (calcFields 1 (initFields false false (x 0).1 (x 0).2) 0 0 0 0 0 0 0 0 0 0 1).normSq ≠ 0
  rw [calcFields_row]
  have hp : stepPhase 0 0 0 = 1 := by simp [stepPhase]
  simp only [fieldsPhase, fieldsLocal, hp, mul_one]
  simp only [Nat.sub_self, min_self, turnsC]
  rw [(normSq_normalizeC _).1 (by rw [h1]; exact one_ne_zero)]
  exact one_ne_zero

theorem axis_rot {c s : ℝ} (h : c ^ 2 + s ^ 2 = 1) : IsAxis fun v => v.x * (c : ℂ) + v.z * (s : ℂ) := by
  refine ⟨fun h => (h.1.mul_const _).add (h.2.2.mul_const _), fun a v => by simp only [C3.smul]; ring, fun v => ?_⟩
  have e : Complex.normSq (v.x * (c : ℂ) + v.z * (s : ℂ)) + Complex.normSq (-v.x * (s : ℂ) + v.z * (c : ℂ)) = Complex.normSq v.x + Complex.normSq v.z := by
    simp only [Complex.normSq_apply, Complex.add_re, Complex.add_im, Complex.mul_re, Complex.mul_im, Complex.neg_re, Complex.neg_im,
      Complex.ofReal_re, Complex.ofReal_im]
    linear_combination (v.x.re ^ 2 + v.x.im ^ 2 + v.z.re ^ 2 + v.z.im ^ 2) * h
  have h1 := Complex.normSq_nonneg (-v.x * (s : ℂ) + v.z * (c : ℂ))
  have h2 := Complex.normSq_nonneg v.y
  unfold C3.normSq
  linarith

/-- C161, light analysed by its polarisation.  Without `coherent`, the mean of each of the three intensities of `calc_refl_co_cross_fields`
is the mean of the sum over the trajectories of the intensities of the same component of their fields. -/
theorem C161_co_cross (nev : ℕ) (k : ℝ) (H : Fin nt → ScatHistory) (pol : Bool) (ri : Fin nt → ℕ) (refl : Fin nt → ℝ) (det : ℝ) :
    let o := fun x => calcReflCoCrossFields (simFields nev k H pol false x) ri refl det
    let E := fun x => reflField (simFields nev k H pol false x) ri refl
    (∫ x, (o x).co ∂(allPhaseDraws nt) =
      ∫ x, ∑ j, Complex.normSq ((E x j).x * (Real.cos det : ℝ) + (E x j).z * (Real.sin det : ℝ)) ∂(allPhaseDraws nt)) ∧
    (∫ x, (o x).cr ∂(allPhaseDraws nt) = ∫ x, ∑ j, Complex.normSq (E x j).y ∂(allPhaseDraws nt)) ∧
    (∫ x, (o x).perp ∂(allPhaseDraws nt) =
      ∫ x, ∑ j, Complex.normSq (-(E x j).x * (Real.sin det : ℝ) + (E x j).z * (Real.cos det : ℝ)) ∂(allPhaseDraws nt)) := by
  intro o E
  have hsum : ∀ (c s : ℝ) x, (totField (simFields nev k H pol false x) ri refl).x * (c : ℂ) + (totField (simFields nev k H pol false x) ri refl).z * (s : ℂ) =
      ∑ j, amp (fun v => v.x * (c : ℂ) + v.z * (s : ℂ)) nev k H pol ri refl j (x j) := by
    intro c s x
    simp only [totField, Finset.sum_mul, ← Finset.sum_add_distrib]
    refine Finset.sum_congr rfl fun j _ => ?_
    rw [reflField_axes]
    unfold amp
    split
    · ring
    · simp
  have hone : ∀ (c s : ℝ) x j, (E x j).x * (c : ℂ) + (E x j).z * (s : ℂ) =
      amp (fun v => v.x * (c : ℂ) + v.z * (s : ℂ)) nev k H pol ri refl j (x j) := by
    intro c s x j
    show (reflField (simFields nev k H pol false x) ri refl j).x * (c : ℂ) + (reflField (simFields nev k H pol false x) ri refl j).z * (s : ℂ) = _
    rw [reflField_axes]
    unfold amp
    split
    · ring
    · simp
  have hcs := Real.sin_sq_add_cos_sq det
  refine ⟨?_, ?_, ?_⟩
  · have e : ∀ x, (o x).co = Complex.normSq (∑ j, amp (fun v => v.x * ((Real.cos det : ℝ) : ℂ) + v.z * ((Real.sin det : ℝ) : ℂ)) nev k H pol ri refl j (x j)) := by
      intro x
      rw [← hsum]
      exact (conjMul_re _).1
    simp only [e, hone]
    exact (amp_average (axis_rot (by linarith)) nev k H pol ri refl).2.2
  · have e : ∀ x, (o x).cr = Complex.normSq (∑ j, amp C3.y nev k H pol ri refl j (x j)) := by
      intro x
      have : (totField (simFields nev k H pol false x) ri refl).y = ∑ j, amp C3.y nev k H pol ri refl j (x j) := by
        simp only [totField, reflField_axes]
      rw [← this]
      exact (conjMul_re _).1
    have e' : ∀ x j, (E x j).y = amp C3.y nev k H pol ri refl j (x j) := by
      intro x j
      show (reflField (simFields nev k H pol false x) ri refl j).y = _
      rw [reflField_axes]
    simp only [e, e']
    exact (amp_average axis_y nev k H pol ri refl).2.2
  · have ev : ∀ a b : ℂ, -a * ((Real.sin det : ℝ) : ℂ) + b * ((Real.cos det : ℝ) : ℂ) = a * ((-Real.sin det : ℝ) : ℂ) + b * ((Real.cos det : ℝ) : ℂ) := by
      intro a b; push_cast; ring
    have e : ∀ x, (o x).perp = Complex.normSq (∑ j, amp (fun v => v.x * ((-Real.sin det : ℝ) : ℂ) + v.z * ((Real.cos det : ℝ) : ℂ)) nev k H pol ri refl j (x j)) := by
      intro x
      rw [← hsum, ← ev]
      exact (conjMul_re _).1
    simp only [e, ev, hone]
    exact (amp_average (axis_rot (by linarith [neg_sq (Real.sin det)])) nev k H pol ri refl).2.2

/-- C161.  Without `coherent`, a polariser with amplitudes `a` and `b` for the two axes passes, on average over the phases drawn, the share
`(|a|^2 + |b|^2) / 2` of unpolarised light, which depends on neither its orientation nor its ellipticity, and `|a|^2`, always, of polarised
light, before (row 0) and after (row 1) the light enters the sample. -/
theorem C161_polarisers (a b : ℂ) (n : ℕ) (hn : n ≤ 1) :
    (∫ y, Complex.normSq (a * (initFields false false y.1 y.2 n).x + b * (initFields false false y.1 y.2 n).y) ∂phaseDraws =
      (Complex.normSq a + Complex.normSq b) / 2) ∧
    ∀ u v, Complex.normSq (a * (initFields true false u v n).x + b * (initFields true false u v n).y) = Complex.normSq a := by
  constructor
  · have e : ∀ y : ℝ × ℝ, Complex.normSq (a * (initFields false false y.1 y.2 n).x + b * (initFields false false y.1 y.2 n).y) =
        (Complex.normSq a + Complex.normSq b) / 2 + (cis y.1 * (a * (starRingEnd ℂ) (b * cis y.2))).re := by
      intro y
      rw [initFields_unpol _ _ hn]
      have h2 : Complex.normSq ((Real.sqrt 2 : ℝ) : ℂ) = 2 := by rw [Complex.normSq_ofReal, Real.mul_self_sqrt (by norm_num)]
      simp only
      rw [show a * (cis y.1 / ((Real.sqrt 2 : ℝ) : ℂ)) + b * (cis y.2 / ((Real.sqrt 2 : ℝ) : ℂ)) = (a * cis y.1 + b * cis y.2) / ((Real.sqrt 2 : ℝ) : ℂ) by ring,
        Complex.normSq_div, h2, Complex.normSq_add, Complex.normSq_mul, Complex.normSq_mul, cis_normSq, cis_normSq,
        show a * cis y.1 * (starRingEnd ℂ) (b * cis y.2) = cis y.1 * (a * (starRingEnd ℂ) (b * cis y.2)) by ring]
      ring
    simp only [e]
    have hm : Measurable fun y : ℝ × ℝ => cis y.1 * (a * (starRingEnd ℂ) (b * cis y.2)) := by
      have h1 : Measurable fun x : ℝ × ℝ => cis x.1 := cis_measurable.comp measurable_fst
      have h2 : Measurable fun x : ℝ × ℝ => cis x.2 := cis_measurable.comp measurable_snd
      exact h1.mul ((Complex.continuous_conj.measurable.comp (h2.const_mul b)).const_mul a)
    have hn1 : ∀ u, ‖cis u‖ = 1 := fun u => Complex.norm_exp_ofReal_mul_I _
    have hi : Integrable (fun y : ℝ × ℝ => cis y.1 * (a * (starRingEnd ℂ) (b * cis y.2))) phaseDraws := by
      refine Integrable.of_bound hm.aestronglyMeasurable (‖a‖ * ‖b‖) (Filter.Eventually.of_forall fun y => ?_)
      rw [norm_mul, norm_mul, RCLike.norm_conj, norm_mul, hn1, hn1]; simp
    rw [integral_add (g := fun y : ℝ × ℝ => (cis y.1 * (a * (starRingEnd ℂ) (b * cis y.2))).re) (integrable_const _) hi.re, show (fun y : ℝ × ℝ => (cis y.1 * (a * (starRingEnd ℂ) (b * cis y.2))).re) =
      fun y => RCLike.re (cis y.1 * (a * (starRingEnd ℂ) (b * cis y.2))) from rfl, integral_re hi]
    have : ∫ y : ℝ × ℝ, cis y.1 * (a * (starRingEnd ℂ) (b * cis y.2)) ∂phaseDraws = 0 := by
      unfold phaseDraws
      rw [integral_prod_mul cis fun v => a * (starRingEnd ℂ) (b * cis v), integral_cis, zero_mul]
    rw [this]
    simp
  · intro u v
    rw [initFields_pol]
    unfold initFields
    have h1 : Real.sqrt (C3.normSq ⟨1, 0, 0⟩) = 1 := by simp [C3.normSq]
    simp only [if_pos hn, if_true, C3.smul, normalizeC, Complex.ofReal_zero, zero_mul, Complex.exp_zero, h1]
    simp [Complex.normSq_mul, cis_normSq]

/-- C161.  With `coherent=True`, all trajectories start with the same field, whatever is drawn. -/
theorem C161_coherent (pol : Bool) (u v u' v' : ℝ) : initFields pol true u v = initFields pol true u' v' := by
  unfold initFields; simp

/-- C161 is false of coherent light with `polarized=False`: every trajectory starts with the same field, linearly polarised at 45 degrees.  A
polariser along that direction passes all of it and one across it nothing. -/
theorem C161_coherent_unpolarised_refuted (u v : ℝ) (n : ℕ) (hn : n ≤ 1) :
    let E := initFields false true u v n
    Complex.normSq ((1 / Real.sqrt 2 : ℝ) * E.x + (1 / Real.sqrt 2 : ℝ) * E.y) = 1 ∧
    Complex.normSq ((1 / Real.sqrt 2 : ℝ) * E.x - (1 / Real.sqrt 2 : ℝ) * E.y) = 0 := by
  intro E
  have hE : E = initFields false false 0 0 n := by
    show initFields false true u v n = _
    unfold initFields; simp
  rw [hE, initFields_unpol _ _ hn, cis_zero]
  have h2 : (Real.sqrt 2) * (Real.sqrt 2) = 2 := Real.mul_self_sqrt (by norm_num)
  constructor
  · have : ((1 / Real.sqrt 2 : ℝ) : ℂ) * (1 / (Real.sqrt 2 : ℝ)) + ((1 / Real.sqrt 2 : ℝ) : ℂ) * (1 / (Real.sqrt 2 : ℝ)) = ((1 : ℝ) : ℂ) := by
      rw [← Complex.ofReal_one, ← Complex.ofReal_div, ← Complex.ofReal_mul, ← Complex.ofReal_add]
      congr 1
      rw [div_mul_div_comm, h2]; norm_num
    simp only [this]; simp
  · simp

/-- Non-vacuity of C161: two trajectories reflected at once, each with half of the light.  With equal phases they interfere (reflectance 2),
with opposite ones they extinguish each other (0); without interference the reflectance is 1. -/
example : ∃ (H : Fin 2 → ScatHistory) (ri : Fin 2 → ℕ) (refl : Fin 2 → ℝ),
    (calcReflPhaseFields (simFields 1 0 H true false fun _ => (0, 0)) ri refl).2 = (2, 1) ∧
    (calcReflPhaseFields (simFields 1 0 H true false fun j => if j = 0 then (0, 0) else (1 / 2, 0)) ri refl).2 = (0, 1) := by
  have hf : ∀ x : Fin 2 → ℝ × ℝ, ∀ j, simFields 1 0 (fun _ => ⟨0, 0, 0, 0, 0, 0, 0, 0, 0⟩) true false x 1 j = ⟨cis (x j).1, 0, 0⟩ := by
    intro x j
    have hc : initFields true true 0 0 1 = ⟨1, 0, 0⟩ := by
      have h1 : Real.sqrt (C3.normSq ⟨1, 0, 0⟩) = 1 := by simp [C3.normSq]
      unfold initFields
      simp only [le_refl, if_true, Complex.ofReal_zero, zero_mul, Complex.exp_zero, normalizeC, h1]
      simp
    have h0 : Real.sqrt (C3.normSq ⟨cis (x j).1, 0, 0⟩) = 1 := by simp [C3.normSq, cis_normSq]
    have hE : initFields true false (x j).1 (x j).2 1 = ⟨cis (x j).1, 0, 0⟩ := by rw [initFields_pol, hc]; simp [C3.smul]
    have hp : stepPhase 0 0 0 = 1 := by simp [stepPhase]
    show calcFields 1 (initFields true false (x j).1 (x j).2) 0 0 0 0 0 0 0 0 0 0 1 = _
    rw [calcFields_row]
    simp only [fieldsPhase, fieldsLocal, hE, hp]
    simp [turnsC, normalizeC, h0]
  have hh : cis (1 / 2) = -1 := by
    unfold cis
    rw [show ((2 * Real.pi * (1 / 2) : ℝ) : ℂ) * Complex.I = Real.pi * Complex.I by push_cast; ring]
    exact Complex.exp_pi_mul_I
  refine ⟨fun _ => ⟨0, 0, 0, 0, 0, 0, 0, 0, 0⟩, fun _ => 1, fun _ => 1 / 2, ?_, ?_⟩
  · ext
    · rw [(phase_fields_eq _ _ _).1]
      simp [totField, reflField, hf, cis_zero, C3.normSq]
    · rw [(phase_fields_eq _ _ _).2]
      simp [reflField, hf, cis_zero, C3.normSq]
  · ext
    · rw [(phase_fields_eq _ _ _).1]
      simp only [totField, reflField, hf, C3.normSq, Fin.sum_univ_two]
      simp only [if_true, Fin.isValue, one_ne_zero, if_false, hh, cis_zero]
      simp
    · rw [(phase_fields_eq _ _ _).2]
      simp only [reflField, hf, C3.normSq, Fin.sum_univ_two]
      simp only [if_true, Fin.isValue, one_ne_zero, if_false, hh, cis_zero]
      simp

end
end Verif.Props
