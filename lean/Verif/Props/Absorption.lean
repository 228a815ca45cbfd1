import Verif.Model.Absorption
import Verif.Props.SingleScat3

/-!
# C117: `absorption_cross_section`
-/

namespace Verif.Props

open Verif.Absorption Verif.SingleScat Verif.Lemmas
open Verif.Structure (Species)
open Verif (XF PyErr)

private theorem range_facts (s : Species) (hd : 0 < s.d) :
    0 ≤ lowest s.d s.pdi ∧ lowest s.d s.pdi < maxDiameter s.d s.pdi ∧ -1 < polyWidth s.pdi ∧
    maxDiameter s.d s.pdi = s.d + 3 * s.d * max s.pdi 1e-5 := by
  have hp := clampPdi_pos s.pdi
  have hw : polyWidth s.pdi + 1 = (1 / Structure.clampPdi s.pdi) ^ 2 := by
    unfold polyWidth
    rw [abs_of_pos (by positivity)]; field_simp; ring
  have hsq : Real.sqrt (polyWidth s.pdi + 1) = 1 / Structure.clampPdi s.pdi := by
    rw [hw, Real.sqrt_sq (by positivity)]
  have hcl : Structure.clampPdi s.pdi = max s.pdi 1e-5 := by
    unfold Structure.clampPdi
    split_ifs with h
    · rw [max_eq_right h.le]
    · rw [max_eq_left (not_lt.mp h)]
  have hmax : maxDiameter s.d s.pdi = s.d + 3 * s.d * Structure.clampPdi s.pdi := by
    unfold maxDiameter; rw [hsq]; field_simp
  have hgt : s.d < maxDiameter s.d s.pdi := by rw [hmax]; have := mul_pos hd hp; linarith
  refine ⟨?_, ?_, ?_, by rw [hmax, hcl]⟩
  · unfold lowest; simp only
    split_ifs with h
    · exact le_refl 0
    · exact not_lt.mp h
  · unfold lowest; simp only
    rw [hsq]
    split_ifs with h
    · linarith
    · have : 0 < 3 * s.d / (1 / Structure.clampPdi s.pdi) := by positivity
      linarith
  · have : 0 < (1 / Structure.clampPdi s.pdi) ^ 2 := by positivity
    linarith

private theorem range_weights (s : Species) (hd : 0 < s.d) :
    (∀ i, i + 1 < 50 → range s i < range s (i + 1)) ∧ (∀ i < 50, 0 ≤ range s i ∧ range s i ≤ s.d + 3 * s.d * max s.pdi 1e-5) ∧
    (∀ i < 50, 0 ≤ weight s i) ∧ trapz 50 (weight s) (range s) = 1 := by
  obtain ⟨f1, f2, f3, f4⟩ := range_facts s hd
  have hinc : ∀ i, i + 1 < 50 → range s i < range s (i + 1) := fun i hi => linspace_lt f2 50 i hi
  have hmem : ∀ i < 50, 0 ≤ range s i ∧ range s i ≤ s.d + 3 * s.d * max s.pdi 1e-5 := by
    intro i hi
    have := linspace_mem f2.le 50 i hi
    exact ⟨f1.trans this.1, f4 ▸ this.2⟩
  have hT := trapz_raw_pos (n := 50) (range s) (by norm_num) hinc (hmem 0 (by norm_num)).1 hd f3
  refine ⟨hinc, hmem, fun i hi => div_nonneg (rawDistribution_nonneg hd f3 (hmem i hi).1) hT.le, ?_⟩
  have := trapz_const_mul 50 (trapz 50 (fun j => rawDistribution s.d (polyWidth s.pdi) (range s j)) (range s))⁻¹
    (fun j => rawDistribution s.d (polyWidth s.pdi) (range s j)) (range s)
  rw [inv_mul_cancel₀ hT.ne'] at this
  rw [← this]
  congr 1
  funext i
  unfold weight
  rw [div_eq_inv_mul]

private theorem ofSpecies_bounds (fu : ℝ → ℝ → ℝ) (s : Species) (lo hi : ℝ) (hd : 0 < s.d) (hc : 0 ≤ s.c)
    (h : ∀ x, 0 ≤ x → x ≤ (s.d + 3 * s.d * max s.pdi 1e-5) / 2 → lo ≤ fu x (s.d / 2) ∧ fu x (s.d / 2) ≤ hi) :
    lo * s.c ≤ ofSpecies fu s ∧ ofSpecies fu s ≤ hi * s.c := by
  obtain ⟨hinc, hmem, hw, one⟩ := range_weights s hd
  have hle := fun i hi => (hinc i hi).le
  have hf : ∀ i < 50, lo ≤ fu (range s i / 2) (s.d / 2) ∧ fu (range s i / 2) (s.d / 2) ≤ hi := fun i hi =>
    h _ (by linarith [(hmem i hi).1]) (by linarith [(hmem i hi).2])
  unfold ofSpecies
  constructor
  · refine mul_le_mul_of_nonneg_right ?_ hc
    calc lo = trapz 50 (fun i => lo * weight s i) (range s) := by rw [trapz_const_mul, one, mul_one]
      _ ≤ _ := trapz_mono 50 _ _ _ hle fun i hi => mul_le_mul_of_nonneg_right (hf i hi).1 (hw i hi)
  · refine mul_le_mul_of_nonneg_right ?_ hc
    calc _ ≤ trapz 50 (fun i => hi * weight s i) (range s) :=
          trapz_mono 50 _ _ _ hle fun i hi => mul_le_mul_of_nonneg_right (hf i hi).2 (hw i hi)
      _ = hi := by rw [trapz_const_mul, one, mul_one]

/-- C117.  What is refused, and how: a polydisperse system needs concentrations and polydispersity indices and cannot have
multilayer particles (ValueError); no geometry (`None`) gives 0 whatever the rest; one sphere gives the Mie value of its first
diameter, for a multilayer particle with negative values replaced by 0. -/
theorem C117_dispatch_partial (fu : ℝ → ℝ → ℝ) (layered : ℝ → ℝ) (layers : ℕ) (im : ℝ) (species : List Species) (hc hp : Bool) :
    (absorptionCrossSection fu layered none layers im species hc hp = .ok 0) ∧
    (absorptionCrossSection fu layered (some "polydisperse") layers im species hc hp = .error .valueError ↔
      hc = false ∨ hp = false ∨ 1 < layers) ∧
    (∀ s rest, species = s :: rest → layers ≤ 1 →
      absorptionCrossSection fu layered (some "sphere") layers im species hc hp = .ok (fu (s.d / 2) (s.d / 2))) ∧
    (∀ s rest, species = s :: rest → 1 < layers →
      absorptionCrossSection fu layered (some "sphere") layers im species hc hp = .ok (max 0 (layered (s.d / 2)))) := by
  refine ⟨?_, ?_, ?_, ?_⟩
  · simp [absorptionCrossSection]
  · unfold absorptionCrossSection
    rw [if_pos rfl]
    cases hc <;> cases hp <;> simp
    split_ifs <;> simp_all
  · rintro s rest rfl hl
    simp [absorptionCrossSection, not_lt.mpr hl]
  · rintro s rest rfl hl
    have e : max 0 (layered (s.d / 2)) = if layered (s.d / 2) < 0 then 0 else layered (s.d / 2) := by
      split_ifs with h
      · exact max_eq_left h.le
      · exact max_eq_right (not_lt.mp h)
    rw [e]
    simp [absorptionCrossSection, hl]

/-- C117, refuted: an unknown geometry is not refused as such.  With a matrix that does not absorb, every misspelt `form_type` returns
0, the answer for "no absorption"; with one that absorbs it is an UnboundLocalError. -/
theorem C117_unknown_form_refuted (fu : ℝ → ℝ → ℝ) (layered : ℝ → ℝ) (layers : ℕ) (species : List Species) (hc hp : Bool)
    (form : String) (h1 : form ≠ "sphere") (h2 : form ≠ "polydisperse") :
    (absorptionCrossSection fu layered (some form) layers 0 species hc hp = .ok 0) ∧
    ∀ im ≠ 0, absorptionCrossSection fu layered (some form) layers im species hc hp = .error .unboundLocalError := by
  constructor
  · simp [absorptionCrossSection, h1, h2]
  · intro im him
    simp [absorptionCrossSection, h1, h2, him]

/-- C117.  The result lies between the smallest and the largest cross section used: for every mixture with nonnegative concentrations
adding up to 1, if the Mie cross section lies between `lo` and `hi` for every radius up to that of the largest diameter, so does the
polydisperse one.  With `lo = 0`: it is never negative. -/
theorem C117_poly_bounds_partial (fu : ℝ → ℝ → ℝ) (layered : ℝ → ℝ) (layers : ℕ) (im : ℝ) (species : List Species) (lo hi : ℝ)
    (hl : layers ≤ 1) (hc : ∀ s ∈ species, 0 ≤ s.c) (hsum : (species.map fun s => s.c).sum = 1) (hd : ∀ s ∈ species, 0 < s.d)
    (hfu : ∀ s ∈ species, ∀ x, 0 ≤ x → x ≤ (s.d + 3 * s.d * max s.pdi 1e-5) / 2 → lo ≤ fu x (s.d / 2) ∧ fu x (s.d / 2) ≤ hi) :
    ∃ v, absorptionCrossSection fu layered (some "polydisperse") layers im species true true = .ok v ∧ lo ≤ v ∧ v ≤ hi := by
  have hne : species ≠ [] := by rintro rfl; simp at hsum
  refine ⟨(species.map (ofSpecies fu)).sum, by simp [absorptionCrossSection, not_lt.mpr hl, hne], ?_, ?_⟩
  · calc lo = (species.map fun s => lo * s.c).sum := by rw [List.sum_map_mul_left, hsum, mul_one]
      _ ≤ _ := List.sum_le_sum fun s hs => (ofSpecies_bounds fu s lo hi (hd s hs) (hc s hs) (hfu s hs)).1
  · calc _ ≤ (species.map fun s => hi * s.c).sum :=
          List.sum_le_sum fun s hs => (ofSpecies_bounds fu s lo hi (hd s hs) (hc s hs) (hfu s hs)).2
      _ = hi := by rw [List.sum_map_mul_left, hsum, mul_one]

/-- C117, refuted: the polydisperse cross section is not determined by the cross sections of the spheres in the distribution.  Two Mie
functions that agree for every sphere (`fu r r`) give different results, because the size parameter in the particle is that of the mean
diameter for every sphere of the distribution. -/
theorem C117_poly_average_refuted (layered : ℝ → ℝ) (im d pdi : ℝ) (hd : 0 < d) :
    ∃ fu fu' : ℝ → ℝ → ℝ, (∀ r, fu r r = fu' r r) ∧
      absorptionCrossSection fu layered (some "polydisperse") 1 im [⟨1, d, pdi⟩] true true ≠
      absorptionCrossSection fu' layered (some "polydisperse") 1 im [⟨1, d, pdi⟩] true true := by
  set s : Species := ⟨1, d, pdi⟩ with hs
  obtain ⟨hinc, hmem, hw, one⟩ := range_weights s hd
  refine ⟨fun _ _ => 0, fun r r' => (r - r') ^ 2, fun r => by simp, ?_⟩
  have e : ∀ fu, absorptionCrossSection fu layered (some "polydisperse") 1 im [s] true true = .ok (ofSpecies fu s) := by
    intro fu; simp [absorptionCrossSection]
  rw [e, e]
  intro h
  injection h with h
  have h0 : ofSpecies (fun _ _ => (0:ℝ)) s = 0 := by simp [ofSpecies, trapz]
  rw [h0] at h
  have hpos : 0 < ofSpecies (fun r r' => (r - r') ^ 2) s := by
    unfold ofSpecies
    rw [show s.c = 1 from rfl, mul_one]
    obtain ⟨f1, f2, f3, f4⟩ := range_facts s hd
    have hT := trapz_raw_pos (n := 50) (range s) (by norm_num) hinc (hmem 0 (by norm_num)).1 hd f3
    unfold trapz
    refine Finset.sum_pos' (fun i hi => ?_) ⟨48, by simp, ?_⟩
    · have hi' := Finset.mem_range.mp hi
      have a := hinc i (by omega)
      have b := hw i (by omega)
      have c := hw (i + 1) (by omega)
      exact div_nonneg (mul_nonneg (by linarith) (add_nonneg (mul_nonneg (sq_nonneg _) b) (mul_nonneg (sq_nonneg _) c))) (by norm_num)
    · have a := hinc 48 (by norm_num)
      have b := hw 48 (by norm_num)
      have last : range s 49 = maxDiameter s.d s.pdi := by
        unfold range Verif.Traj.linspace
        norm_num
        ring
      have gt : s.d < range s 49 := by
        rw [last, f4]
        have : (0:ℝ) < max s.pdi 1e-5 := lt_max_of_lt_right (by norm_num)
        have := mul_pos hd this
        linarith
      have c : 0 < weight s 49 := by
        refine div_pos (rawDistribution_pos hd f3 ?_) hT
        linarith [show 0 < s.d from hd]
      have q : 0 < (range s 49 / 2 - s.d / 2) ^ 2 := by
        have : 0 < range s 49 / 2 - s.d / 2 := by linarith
        positivity
      exact div_pos (mul_pos (by simpa using a) (add_pos_of_nonneg_of_pos (mul_nonneg (sq_nonneg _) b) (mul_pos q c))) (by norm_num)
  linarith

/-- Non-vacuity of C117: two species of absorbing spheres, the cross section proportional to the volume. -/
example : ∀ s ∈ [(⟨0.5, 0.2, 0.1⟩ : Species), ⟨0.5, 0.3, 0⟩], 0 ≤ s.c ∧ 0 < s.d ∧
    ∀ x, 0 ≤ x → x ≤ (s.d + 3 * s.d * max s.pdi 1e-5) / 2 → 0 ≤ (fun r _ : ℝ => r ^ 3) x (s.d / 2) ∧
      (fun r _ : ℝ => r ^ 3) x (s.d / 2) ≤ 1 := by
  intro s hs
  fin_cases hs <;> norm_num <;> intro x h0 h1 <;> exact ⟨by positivity, pow_le_one₀ h0 (by linarith)⟩

end Verif.Props
