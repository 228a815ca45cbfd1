import Verif.Lemmas.Trapz
import Verif.Model.SingleScat
import Mathlib.Analysis.SpecialFunctions.Gamma.Basic
import Mathlib.Analysis.SpecialFunctions.Pow.Real

/-!
# C58, C60, C77: size distributions, polydisperse form factors, dispatch
-/

namespace Verif.Props
open Verif.SingleScat Verif.XF Verif.Lemmas
open Verif (XF PyErr)
open Verif.Traj (linspace)

/-! ### C58: the size distribution -/

theorem rawDistribution_nonneg {mean t d : ℝ} (hm : 0 < mean) (ht : -1 < t) (hd : 0 ≤ d) : 0 ≤ rawDistribution mean t d := by
  unfold rawDistribution
  split_ifs
  · have := Real.Gamma_pos_of_pos (by linarith : 0 < t + 1)
    have : 0 ≤ (t + 1) / mean := div_nonneg (by linarith) hm.le
    have := Real.rpow_nonneg this (t + 1)
    have := Real.rpow_nonneg hd t
    positivity
  · positivity

theorem rawDistribution_pos {mean t d : ℝ} (hm : 0 < mean) (ht : -1 < t) (hd : 0 < d) : 0 < rawDistribution mean t d := by
  unfold rawDistribution
  split_ifs with h
  · have := Real.Gamma_pos_of_pos (by linarith : 0 < t + 1)
    have : 0 < (t + 1) / mean := div_pos (by linarith) hm
    have := Real.rpow_pos_of_pos this (t + 1)
    have := Real.rpow_pos_of_pos hd t
    positivity
  · have : 0 < t + 1 := by linarith
    have : 0 < Real.sqrt (t + 1) := Real.sqrt_pos.mpr this
    have : 0 < 2 * Real.pi * (d / Real.sqrt (t + 1)) ^ 2 := by have := Real.pi_pos; positivity
    have := Real.sqrt_pos.mpr this
    positivity

/-- the trapezoid integral of the unnormalised distribution is positive: the smallest diameter may be 0 -/
theorem trapz_raw_pos {n : ℕ} (d : ℕ → ℝ) {mean t : ℝ} (hn : 2 ≤ n) (hinc : ∀ i, i + 1 < n → d i < d (i + 1)) (h0 : 0 ≤ d 0)
    (hm : 0 < mean) (ht : -1 < t) : 0 < trapz n (fun j => rawDistribution mean t (d j)) d := by
  have hpos : ∀ i < n, 0 ≤ d i ∧ (0 < i → 0 < d i) := by
    intro i
    induction i with
    | zero => intro _; exact ⟨h0, fun h => absurd h (lt_irrefl 0)⟩
    | succ k ih =>
      intro hk
      have := hinc k hk
      have := (ih (by omega)).1
      exact ⟨by linarith, fun _ => by linarith⟩
  unfold trapz
  refine Finset.sum_pos' (fun i hi => ?_) ⟨0, Finset.mem_range.mpr (by omega), ?_⟩
  · have hi := Finset.mem_range.mp hi
    have h1 := hinc i (by omega)
    have h2 := rawDistribution_nonneg hm ht (hpos i (by omega)).1
    have h3 := rawDistribution_nonneg hm ht (hpos (i+1) (by omega)).1
    exact div_nonneg (mul_nonneg (by linarith) (by linarith)) (by norm_num)
  · have h1 := hinc 0 (by omega)
    have h2 := rawDistribution_nonneg hm ht (hpos 0 (by omega)).1
    have h3 := rawDistribution_pos hm ht ((hpos 1 (by omega)).2 one_pos)
    exact div_pos (mul_pos (by linarith) (by simp only [zero_add]; linarith)) (by norm_num)

/-- C58 (normalisation).  For every increasing grid of at least two non-negative diameters, every mean and width, in both branches, the
weights are non-negative numbers whose trapezoid integral over the grid is 1. -/
theorem C58_size_distribution_partial {n : ℕ} (d : ℕ → ℝ) {mean t : ℝ} (hn : 2 ≤ n) (hinc : ∀ i, i + 1 < n → d i < d (i + 1))
    (h0 : 0 ≤ d 0) (hm : 0 < mean) (ht : -1 < t) :
    ∃ w : ℕ → ℝ, (∀ i, sizeDistribution n d mean t i = fin (w i)) ∧ (∀ i < n, 0 ≤ w i) ∧ trapz n w d = 1 := by
  have hpos : ∀ i < n, 0 ≤ d i := by
    intro i
    induction i with
    | zero => intro _; exact h0
    | succ k ih => intro hk; linarith [hinc k hk, ih (by omega)]
  have hT := trapz_raw_pos d hn hinc h0 hm ht
  refine ⟨fun i => rawDistribution mean t (d i) / trapz n (fun j => rawDistribution mean t (d j)) d, fun i => ?_, fun i hi => ?_, ?_⟩
  · simp only [sizeDistribution, fin_div _ hT.ne']
  · exact div_nonneg (rawDistribution_nonneg hm ht (hpos i hi)) hT.le
  · have := trapz_const_mul n (trapz n (fun j => rawDistribution mean t (d j)) d)⁻¹ (fun j => rawDistribution mean t (d j)) d
    rw [inv_mul_cancel₀ hT.ne'] at this
    rw [← this]
    congr 1
    funext i
    rw [div_eq_inv_mul]

example : (∀ i : ℕ, i + 1 < 50 → (i : ℝ) < ((i + 1 : ℕ) : ℝ)) ∧ (-1 : ℝ) < 200 := by
  refine ⟨fun i _ => by push_cast; linarith, by norm_num⟩

/-- C58, refuted: for narrow distributions (`t > 100`) the weights are not those of a Gaussian about the mean.  The width used at each
diameter is that diameter over `sqrt(t+1)`, so diameters equally far from the mean do not get the same weight, as they would for every
Gaussian centred on the mean: at `1/2` and `3/2` of the mean the weights differ. -/
theorem C58_gaussian_branch_refuted (mean t : ℝ) (hm : 0 < mean) (ht : 100 < t) :
    rawDistribution mean t (mean - mean / 2) < rawDistribution mean t (mean + mean / 2) := by
  have h1 : 0 < t + 1 := by linarith
  have e : ∀ d, rawDistribution mean t d = Real.exp (-(d - mean) ^ 2 / (2 * (d / Real.sqrt (t + 1)) ^ 2)) / Real.sqrt (2 * Real.pi * (d / Real.sqrt (t + 1)) ^ 2) := by
    intro d; unfold rawDistribution; rw [if_neg (by linarith)]
  have hs := Real.sq_sqrt h1.le
  have hsp := Real.sqrt_pos.mpr h1
  set s := Real.sqrt (t + 1) with hsdef
  have sq : ∀ d : ℝ, 0 < d → Real.sqrt (2 * Real.pi * (d / s) ^ 2) = Real.sqrt (2 * Real.pi) * (d / s) := by
    intro d hd
    rw [Real.sqrt_mul (by positivity), Real.sqrt_sq (by positivity)]
  rw [e, e, sq _ (by linarith), sq _ (by linarith)]
  have e1 : -(mean - mean / 2 - mean) ^ 2 / (2 * ((mean - mean / 2) / s) ^ 2) = -(t + 1) / 2 := by
    rw [← hs]; field_simp; ring
  have e2 : -(mean + mean / 2 - mean) ^ 2 / (2 * ((mean + mean / 2) / s) ^ 2) = -(t + 1) / 18 := by
    rw [← hs]; field_simp; ring
  rw [e1, e2]
  have hp : 0 < Real.sqrt (2 * Real.pi) := Real.sqrt_pos.mpr (by have := Real.pi_pos; positivity)
  have e3 : mean - mean / 2 = mean * (1/2) := by ring
  have e4 : mean + mean / 2 = mean * (3/2) := by ring
  rw [e3, e4, div_lt_div_iff₀ (by positivity) (by positivity)]
  -- exp(-(t+1)/2) * 3 < exp(-(t+1)/18)
  have h3 : Real.exp (-(t+1)/2) * 3 < Real.exp (-(t+1)/18) := by
    have : Real.exp (-(t+1)/18) = Real.exp (-(t+1)/2) * Real.exp (4 * (t+1) / 9) := by rw [← Real.exp_add]; congr 1; ring
    rw [this]
    have hexp : 3 < Real.exp (4 * (t+1) / 9) := by
      have := Real.add_one_le_exp (4 * (t+1) / 9)
      linarith
    exact mul_lt_mul_of_pos_left hexp (Real.exp_pos _)
  have hk : 0 < Real.sqrt (2 * Real.pi) * (mean * (1/2) / s) := by positivity
  calc Real.exp (-(t + 1) / 2) * (Real.sqrt (2 * Real.pi) * (mean * (3 / 2) / s))
      = (Real.exp (-(t+1)/2) * 3) * (Real.sqrt (2 * Real.pi) * (mean * (1/2) / s)) := by ring
    _ < Real.exp (-(t+1)/18) * (Real.sqrt (2 * Real.pi) * (mean * (1/2) / s)) := mul_lt_mul_of_pos_right h3 hk

/-! ### C77: the polydisperse form factor -/

theorem clampPdi_pos (pdi : ℝ) : 0 < Structure.clampPdi pdi := by
  unfold Structure.clampPdi
  split_ifs with h
  · norm_num
  · have : (0:ℝ) < 1e-5 := by norm_num
    linarith

/-- the diameters of one species are within three standard deviations `d * pdi` of the mean `d`, and start above 0 -/
theorem diameterRange_facts (s : Structure.Species) (hd : 1e-6 < s.d) :
    0 ≤ minDiameter s.d s.pdi ∧ minDiameter s.d s.pdi < maxDiameter s.d s.pdi ∧ -1 < polyWidth s.pdi ∧
    maxDiameter s.d s.pdi = s.d + 3 * s.d * Structure.clampPdi s.pdi := by
  have hd0 : 0 < s.d := by have : (0:ℝ) < 1e-6 := by norm_num
                           linarith
  have hp := clampPdi_pos s.pdi
  have hw : polyWidth s.pdi + 1 = (1 / Structure.clampPdi s.pdi) ^ 2 := by
    unfold polyWidth
    rw [abs_of_pos (by positivity)]; field_simp; ring
  have hsq : Real.sqrt (polyWidth s.pdi + 1) = 1 / Structure.clampPdi s.pdi := by
    rw [hw, Real.sqrt_sq (by positivity)]
  have hmax : maxDiameter s.d s.pdi = s.d + 3 * s.d * Structure.clampPdi s.pdi := by
    unfold maxDiameter; rw [hsq]; field_simp
  have hgt : s.d < maxDiameter s.d s.pdi := by rw [hmax]; have := mul_pos hd0 hp; linarith
  refine ⟨?_, ?_, ?_, hmax⟩
  · unfold minDiameter; simp only
    split_ifs with h
    · norm_num
    · exact not_lt.mp h
  · unfold minDiameter; simp only
    rw [hsq]
    split_ifs with h
    · norm_num at hd ⊢; linarith
    · have : 0 < 3 * s.d / (1 / Structure.clampPdi s.pdi) := by positivity
      linarith
  · have : 0 < (1 / Structure.clampPdi s.pdi) ^ 2 := by positivity
    linarith

/-- C77.  For every mixture with non-negative concentrations adding up to 1, if the form factor of each sphere within the size
distributions lies between `lo` and `hi`, so does the polydisperse form factor.  (Diameters in micrometres, above the 1e-6 the code uses
for a vanishing lower end of the range.) -/
theorem C77_poly_form_factor_bounds (form : ℝ → ℝ) (species : List Structure.Species) (lo hi : ℝ)
    (hc : ∀ s ∈ species, 0 ≤ s.c) (hsum : (species.map fun s => s.c).sum = 1) (hd : ∀ s ∈ species, 1e-6 < s.d)
    (hform : ∀ s ∈ species, ∀ x, 0 ≤ x → x ≤ s.d + 3 * s.d * max s.pdi 1e-5 → lo ≤ form x ∧ form x ≤ hi) :
    lo ≤ polydisperseFormFactor form species ∧ polydisperseFormFactor form species ≤ hi := by
  have key : ∀ s ∈ species, lo ≤ trapz 50 (fun i => form (diameterRange s.d s.pdi i) *
      (rawDistribution s.d (polyWidth s.pdi) (diameterRange s.d s.pdi i) /
        trapz 50 (fun j => rawDistribution s.d (polyWidth s.pdi) (diameterRange s.d s.pdi j)) (diameterRange s.d s.pdi)))
      (diameterRange s.d s.pdi) ∧ trapz 50 (fun i => form (diameterRange s.d s.pdi i) *
      (rawDistribution s.d (polyWidth s.pdi) (diameterRange s.d s.pdi i) /
        trapz 50 (fun j => rawDistribution s.d (polyWidth s.pdi) (diameterRange s.d s.pdi j)) (diameterRange s.d s.pdi)))
      (diameterRange s.d s.pdi) ≤ hi := by
    intro s hs
    have hd0 : 0 < s.d := by have : (0:ℝ) < 1e-6 := by norm_num
                             linarith [hd s hs]
    obtain ⟨f1, f2, f3, f4⟩ := diameterRange_facts s (hd s hs)
    have hinc : ∀ i, i + 1 < 50 → diameterRange s.d s.pdi i < diameterRange s.d s.pdi (i + 1) := fun i hi => linspace_lt f2 50 i hi
    have hmem : ∀ i < 50, 0 ≤ diameterRange s.d s.pdi i ∧ diameterRange s.d s.pdi i ≤ s.d + 3 * s.d * max s.pdi 1e-5 := by
      intro i hi
      have := linspace_mem f2.le 50 i hi
      have hcl : Structure.clampPdi s.pdi = max s.pdi 1e-5 := by
        unfold Structure.clampPdi
        split_ifs with h
        · rw [max_eq_right h.le]
        · rw [max_eq_left (not_lt.mp h)]
      refine ⟨f1.trans this.1, ?_⟩
      rw [← hcl, ← f4]
      exact this.2
    have hT := trapz_raw_pos (n := 50) (diameterRange s.d s.pdi) (by norm_num) hinc (hmem 0 (by norm_num)).1 hd0 f3
    set T := trapz 50 (fun j => rawDistribution s.d (polyWidth s.pdi) (diameterRange s.d s.pdi j)) (diameterRange s.d s.pdi) with hTdef
    have one : trapz 50 (fun i => rawDistribution s.d (polyWidth s.pdi) (diameterRange s.d s.pdi i) / T) (diameterRange s.d s.pdi) = 1 := by
      have := trapz_const_mul 50 T⁻¹ (fun j => rawDistribution s.d (polyWidth s.pdi) (diameterRange s.d s.pdi j)) (diameterRange s.d s.pdi)
      rw [← hTdef, inv_mul_cancel₀ hT.ne'] at this
      rw [← this]
      congr 1
      funext i
      rw [div_eq_inv_mul]
    have hw : ∀ i < 50, 0 ≤ rawDistribution s.d (polyWidth s.pdi) (diameterRange s.d s.pdi i) / T := fun i hi =>
      div_nonneg (rawDistribution_nonneg hd0 f3 (hmem i hi).1) hT.le
    have hle := fun i hi => (hinc i hi).le
    constructor
    · calc lo = trapz 50 (fun i => lo * (rawDistribution s.d (polyWidth s.pdi) (diameterRange s.d s.pdi i) / T)) (diameterRange s.d s.pdi) := by
            rw [trapz_const_mul, one, mul_one]
        _ ≤ _ := trapz_mono 50 _ _ _ hle fun i hi => mul_le_mul_of_nonneg_right (hform s hs _ (hmem i hi).1 (hmem i hi).2).1 (hw i hi)
    · calc _ ≤ trapz 50 (fun i => hi * (rawDistribution s.d (polyWidth s.pdi) (diameterRange s.d s.pdi i) / T)) (diameterRange s.d s.pdi) :=
            trapz_mono 50 _ _ _ hle fun i hi => mul_le_mul_of_nonneg_right (hform s hs _ (hmem i hi).1 (hmem i hi).2).2 (hw i hi)
        _ = hi := by rw [trapz_const_mul, one, mul_one]
  unfold polydisperseFormFactor
  constructor
  · calc lo = (species.map fun s => lo * s.c).sum := by rw [List.sum_map_mul_left, hsum, mul_one]
      _ ≤ _ := List.sum_le_sum fun s hs => mul_le_mul_of_nonneg_right (key s hs).1 (hc s hs)
  · calc _ ≤ (species.map fun s => hi * s.c).sum := List.sum_le_sum fun s hs => mul_le_mul_of_nonneg_right (key s hs).2 (hc s hs)
      _ = hi := by rw [List.sum_map_mul_left, hsum, mul_one]

/-- Non-vacuity of C77: half small, half large spheres and a form factor between 0 and 1. -/
example : (∀ s ∈ [(⟨0.2, 0.5, 0.1⟩ : Structure.Species), ⟨0.3, 0.5, 0⟩], 0 ≤ s.c ∧ 1e-6 < s.d) := by
  intro s hs; fin_cases hs <;> norm_num

/-! ### C60: dispatch -/

/-- the arguments a polydisperse form factor needs -/
def HasPolyForm (g : Given) : Prop := g.diameters ∧ g.concentration ∧ g.pdi ∧ g.wavelen ∧ g.n_matrix ∧ g.layers ≤ 1
/-- the arguments a polydisperse structure factor needs -/
def HasPolyStruct (g : Given) : Prop := g.diameters ∧ g.concentration ∧ g.pdi ∧ g.layers ≤ 1

/-- C60 (`differential_cross_section`).  A result is returned exactly for the documented types with the arguments they need, and it is the
one asked for; everything else, whatever the strings and dictionaries, is an error, never silently another model. -/
theorem C60_dispatch_partial (ft : Option String) (st : StructType) (g : Given) (f : Form) (s : Struct) :
    dispatch ft st g = .ok (f, s) ↔
      ((ft = none ∧ f = .one) ∨ (ft = some "polydisperse" ∧ HasPolyForm g ∧ f = .poly) ∨
       (ft = some "sphere" ∧ ((g.k ∧ (g.kAbsorbing ∨ g.cartesian) ∧ g.distance ∧ f = .mieComplexMedium) ∨
          (¬ (g.k ∧ (g.kAbsorbing ∨ g.cartesian)) ∧ f = .mieAngular)))) ∧
      ((st = .none ∧ s = .one) ∨ (st = .str "glass" ∧ s = .glass) ∨ (st = .str "paracrystal" ∧ s = .para) ∨
       (st = .dict (some "paracrystal") true ∧ s = .para) ∨ (st = .str "data" ∧ g.s_data ∧ g.qd_data ∧ s = .data) ∨
       (st = .str "polydisperse" ∧ HasPolyStruct g ∧ s = .poly)) := by
  have hd : dispatch ft st g = .ok (f, s) ↔ formBranch ft g = .ok f ∧ structBranch st g = .ok s := by
    unfold dispatch
    cases formBranch ft g <;> cases structBranch st g <;> simp [bind, Except.bind, pure, Except.pure]
  rw [hd]
  apply and_congr
  · unfold formBranch HasPolyForm
    split
    · by_cases h : (g.k && (g.kAbsorbing || g.cartesian)) = true
      · have h' : g.k = true ∧ (g.kAbsorbing = true ∨ g.cartesian = true) := by simpa using h
        rw [if_pos h]
        by_cases hdist : g.distance = true
        · rw [if_pos hdist]
          constructor
          · intro e; cases e; right; right; exact ⟨rfl, Or.inl ⟨h'.1, h'.2, hdist, rfl⟩⟩
          · rintro (⟨h1, _⟩ | ⟨h1, _⟩ | ⟨_, ⟨_, _, _, rfl⟩ | ⟨hn, _⟩⟩)
            · exact absurd h1 (by simp)
            · exact absurd h1 (by simp)
            · rfl
            · exact absurd h' hn
        · rw [if_neg hdist]
          constructor
          · intro e; cases e
          · rintro (⟨h1, _⟩ | ⟨h1, _⟩ | ⟨_, ⟨_, _, hd', _⟩ | ⟨hn, _⟩⟩)
            · exact absurd h1 (by simp)
            · exact absurd h1 (by simp)
            · exact absurd hd' hdist
            · exact absurd h' hn
      · have h' : ¬ (g.k = true ∧ (g.kAbsorbing = true ∨ g.cartesian = true)) := by simpa using h
        rw [if_neg h]
        constructor
        · intro e; cases e; right; right; exact ⟨rfl, Or.inr ⟨h', rfl⟩⟩
        · rintro (⟨h1, _⟩ | ⟨h1, _⟩ | ⟨_, ⟨ha, hb, _, _⟩ | ⟨_, rfl⟩⟩)
          · exact absurd h1 (by simp)
          · exact absurd h1 (by simp)
          · exact absurd ⟨ha, hb⟩ h'
          · rfl
    · by_cases h : (!g.diameters || !g.concentration || !g.pdi || !g.wavelen || !g.n_matrix) = true
      · rw [if_pos h]
        simp only [Bool.or_eq_true, Bool.not_eq_true'] at h
        constructor
        · intro e; cases e
        · rintro (⟨h1, _⟩ | ⟨_, ⟨a, b, c, d, e, _⟩, _⟩ | ⟨h1, _⟩)
          · exact absurd h1 (by simp)
          · simp_all
          · exact absurd h1 (by decide)
      · rw [if_neg h]
        simp only [Bool.or_eq_true, Bool.not_eq_true', not_or, Bool.not_eq_false] at h
        by_cases hl : 1 < g.layers
        · rw [if_pos hl]
          constructor
          · intro e; cases e
          · rintro (⟨h1, _⟩ | ⟨_, ⟨_, _, _, _, _, e⟩, _⟩ | ⟨h1, _⟩)
            · exact absurd h1 (by simp)
            · omega
            · exact absurd h1 (by decide)
        · rw [if_neg hl]
          constructor
          · intro e; cases e; right; left
            exact ⟨rfl, ⟨h.1.1.1.1, h.1.1.1.2, h.1.1.2, h.1.2, h.2, by omega⟩, rfl⟩
          · rintro (⟨h1, _⟩ | ⟨_, _, rfl⟩ | ⟨h1, _⟩)
            · exact absurd h1 (by simp)
            · rfl
            · exact absurd h1 (by decide)
    · simp <;> exact eq_comm
    · rename_i x h1 h2
      simp only [Option.some.injEq, reduceCtorEq, false_and, false_or, false_iff, not_or]
      refine ⟨fun h => h2 (by rw [h.1]), fun h => h1 (by rw [h.1])⟩
  · unfold structBranch HasPolyStruct
    cases st with
    | none => simp <;> exact eq_comm
    | other => simp
    | dict name hs =>
      cases name with
      | none => simp
      | some nm =>
        by_cases h : nm = "paracrystal" <;> cases hs <;> simp [h] <;> exact eq_comm
    | str t =>
      simp only [reduceCtorEq, false_and, false_or, StructType.str.injEq]
      by_cases h1 : t = "glass"
      · subst h1; simp <;> exact eq_comm
      by_cases h2 : t = "paracrystal"
      · subst h2; simp <;> exact eq_comm
      by_cases h3 : t = "data"
      · subst h3; cases g.s_data <;> cases g.qd_data <;> simp <;> exact eq_comm
      by_cases h4 : t = "polydisperse"
      · subst h4
        cases g.diameters <;> cases g.concentration <;> cases g.pdi <;> by_cases hl : 1 < g.layers <;>
          simp [hl] <;> first | exact eq_comm | omega | (constructor <;> intro h <;> simp_all)
      · simp [h1, h2, h3, h4]

/-- C60.  An unknown form type is always a ValueError; so is an unknown structure type whenever the form factor could be computed. -/
theorem C60_unknown_types_partial (ft : String) (st : String) (g : Given) :
    (ft ∉ ["sphere", "polydisperse"] → ∀ s, dispatch (some ft) s g = .error .valueError) ∧
    (st ∉ ["glass", "paracrystal", "data", "polydisperse"] → dispatch none (.str st) g = .error .valueError) := by
  constructor
  · intro h s
    simp only [List.mem_cons, List.not_mem_nil, or_false, not_or] at h
    have : formBranch (some ft) g = .error .valueError := by
      unfold formBranch
      split
      · rename_i e; exact absurd (Option.some.inj e) h.1
      · rename_i e; exact absurd (Option.some.inj e) h.2
      · rename_i e; cases e
      · rfl
    simp [dispatch, this, bind, Except.bind]
  · intro h
    simp only [List.mem_cons, List.not_mem_nil, or_false, not_or] at h
    simp [dispatch, formBranch, structBranch, h, bind, Except.bind]

/-- C60, refuted: `reflection` with `effective_medium_form=True` and `effective_medium_struct=False` fails because a variable was never
assigned, and it is the only combination of the two flags that does. -/
theorem C60_undefined_variable_refuted (form struct : Bool) (n_matrix n_eff : ℝ) :
    sampleIndex form struct n_matrix n_eff = .error .unboundLocalError ↔ form = true ∧ struct = false := by
  cases form <;> cases struct <;> simp [sampleIndex]

/-- C60, refuted: for spheres, asking for cartesian coordinates without giving `k` is not an error: the angular distribution in the
scattering plane is returned, the same as when cartesian coordinates are not asked for. -/
theorem C60_cartesian_ignored_refuted (st : StructType) (g : Given) (h : g.k = false) :
    dispatch (some "sphere") st g = dispatch (some "sphere") st { g with cartesian := !g.cartesian } := by
  unfold dispatch
  have : formBranch (some "sphere") g = formBranch (some "sphere") { g with cartesian := !g.cartesian } := by
    simp [formBranch, h]
  rw [this]
  rfl

example : ("cube" : String) ∉ ["sphere", "polydisperse"] := by decide

/-! ### C79: the momentum transfer -/

/-- C79.  For spheres of diameter `d` and light of wavevector `k` in the sample, the structure factor is evaluated at `q d`, where `q` is
the length of the difference between the scattered and the incident wavevector, and the cross section is the product of structure and
form factor; with neither it is 1. -/
theorem C79_momentum_transfer (k d θ φ : ℝ) (hk : 0 < k) (hd : 0 < d) (hθ0 : 0 ≤ θ) (hθ : θ ≤ Real.pi)
    (form : Form → ℝ → ℝ × ℝ) (struct : Struct → ℝ → ℝ) :
    let q := Real.sqrt ((k * (Real.sin θ * Real.cos φ) - k * 0) ^ 2 + (k * (Real.sin θ * Real.sin φ) - k * 0) ^ 2 + (k * Real.cos θ - k * 1) ^ 2)
    qd [k * (d / 2)] none θ = q * d ∧
    diffCS (.mieAngular, .glass) form struct [k * (d / 2)] none d θ =
      (struct .glass (q * d) * (form .mieAngular θ).1, struct .glass (q * d) * (form .mieAngular θ).2) ∧
    diffCS (.poly, .poly) form struct [k * (d / 2)] none d θ =
      (struct .poly q * (form .poly θ).1, struct .poly q * (form .poly θ).2) ∧
    diffCS (.mieAngular, .one) form struct [k * (d / 2)] none d θ = form .mieAngular θ ∧
    diffCS (.one, .one) form struct [k * (d / 2)] none d θ = (1, 1) := by
  intro q
  have hs : 0 ≤ Real.sin (θ / 2) := Real.sin_nonneg_of_nonneg_of_le_pi (by linarith) (by linarith)
  have hq : q = 2 * k * Real.sin (θ / 2) := by
    have : (k * (Real.sin θ * Real.cos φ) - k * 0) ^ 2 + (k * (Real.sin θ * Real.sin φ) - k * 0) ^ 2 + (k * Real.cos θ - k * 1) ^ 2 =
        (2 * k * Real.sin (θ / 2)) ^ 2 := by
      have h1 := Real.sin_sq_add_cos_sq θ
      have h2 := Real.sin_sq_add_cos_sq φ
      have h3 : Real.cos θ = 1 - 2 * Real.sin (θ / 2) ^ 2 := by
        rw [show θ = 2 * (θ / 2) by ring, Real.cos_two_mul, show 2 * (θ / 2) / 2 = θ / 2 by ring]
        have := Real.sin_sq_add_cos_sq (θ / 2)
        linarith
      have e1 : (k * (Real.sin θ * Real.cos φ) - k * 0) ^ 2 + (k * (Real.sin θ * Real.sin φ) - k * 0) ^ 2 =
          k ^ 2 * Real.sin θ ^ 2 * (Real.sin φ ^ 2 + Real.cos φ ^ 2) := by ring
      rw [e1, h2, show Real.sin θ ^ 2 = 1 - Real.cos θ ^ 2 by linarith, h3]
      ring
    show Real.sqrt _ = _
    rw [this, Real.sqrt_sq (by positivity)]
  have hqd : qd [k * (d / 2)] none θ = q * d := by
    rw [hq]
    simp only [qd, Option.getD_none, List.map_cons, List.map_nil, List.foldr_cons, List.foldr_nil]
    rw [abs_of_nonneg (by positivity), max_eq_left (by positivity)]
    ring
  refine ⟨hqd, ?_, ?_, ?_, ?_⟩
  · simp [diffCS, hqd]
  · simp only [diffCS, hqd, mul_div_assoc, div_self hd.ne', mul_one]; simp
  · simp [diffCS]
  · simp [diffCS]

end Verif.Props
