import Verif.Model.Radial
import Verif.Props.Structure
import Mathlib.Algebra.BigOperators.Field
import Mathlib.Analysis.Real.Pi.Bounds

/-!
# C91-C94: the radial distribution function and the phase sums built on it
-/

namespace Verif.Props
open Verif.Radial Verif.XF
open Verif.Structure (cc c0 c1 c3)
open Verif (XF PyErr)
open Verif.Traj (linspace choiceOk Drawn)

/-! ### C91 -/

/-- what is assumed of the spline: on increasing nodes it passes through finite data -/
def PassesThroughData (spline : Spline) : Prop :=
  ∀ (r y : Fin 2048 → ℝ), StrictMono r → ∀ i, spline r (fun j => fin (y j)) (r i) = fin (y i)

/-- Specification, written out: radii, wavenumbers, and the discretised spherical transform of the direct correlation function -/
noncomputable def radius (i : Fin 2048) : ℝ := (i.val + 1) * (1 / 200)
noncomputable def wavenumber (i : Fin 2048) : ℝ := (i.val + 1) * (25 / 256)
noncomputable def cTransform (phi : ℝ) (i : Fin 2048) : ℝ :=
  4 * Real.pi / wavenumber i * ∑ j, radius j * Real.sin (wavenumber i * radius j) * cc (radius j) phi * (1 / 200)

theorem rGrid_eq : rGrid = radius := by
  funext i; simp only [rGrid, grid, radius, dr]; norm_num

theorem dk_eq : dk = 25 / 256 := by
  simp only [dk, rGrid_eq, radius, Fin.val_last]; norm_num

theorem kGrid_eq : kGrid = wavenumber := by
  funext i; simp only [kGrid, grid, wavenumber, dk_eq]

theorem wavenumber_pos (i : Fin 2048) : 0 < wavenumber i := by unfold wavenumber; positivity
theorem radius_pos (i : Fin 2048) : 0 < radius i := by unfold radius; positivity
theorem radius_mono : StrictMono radius := by
  intro i j h
  have : (i.val : ℝ) < j.val := by exact_mod_cast h
  unfold radius; linarith

theorem ftC_eq (phi : ℝ) (i : Fin 2048) : ftC phi i = fin (cTransform phi i) := by
  unfold ftC sphericalFT
  rw [kGrid_eq, rGrid_eq, fin_div _ (wavenumber_pos i).ne', fin_inj]
  unfold cTransform dr
  norm_num
  ring

/-- C91.  Whatever spline is used (as long as it passes through its data), `radial_dist_py` at each of its own grid points is: 0 inside
contact; outside, `1 + h`, where `h` is the inverse transform of a solution `H` of the Ornstein-Zernike equation `H = C + rho C H` with
`C` the transform of the Percus-Yevick direct correlation function and `rho = 6 phi/pi` the number density in units of the diameter; so
`1 + rho H` is the structure factor `1/(1 - rho C)`. -/
theorem C91_radial_distribution (spline : Spline) (hs : PassesThroughData spline) (phi : ℝ)
    (hden : ∀ i, 6 * phi / Real.pi * cTransform phi i ≠ 1) :
    ∃ H h : Fin 2048 → ℝ,
      (∀ i, H i = cTransform phi i + 6 * phi / Real.pi * cTransform phi i * H i) ∧
      (∀ i, 1 + 6 * phi / Real.pi * H i = 1 / (1 - 6 * phi / Real.pi * cTransform phi i)) ∧
      (∀ i, h i = 1 / (2 * Real.pi ^ 2 * radius i) * ∑ j, wavenumber j * Real.sin (wavenumber j * radius i) * H j * (25 / 256)) ∧
      ∀ i, radialDistPy spline phi (radius i) = fin (if radius i < 1 then 0 else 1 + h i) := by
  have hne : ∀ i, 1 - 6 * phi / Real.pi * cTransform phi i ≠ 0 := fun i => sub_ne_zero.mpr (hden i).symm
  have hrho : rho phi = 6 * phi / Real.pi := by unfold rho; ring
  have hH : ∀ i, ftH phi i = fin (cTransform phi i / (1 - 6 * phi / Real.pi * cTransform phi i)) := by
    intro i
    unfold ftH
    rw [ftC_eq, hrho, fin_mul, fin_sub, fin_div _ (hne i)]
  have hh : ∀ i, hArr phi i = fin (1 / (2 * Real.pi ^ 2 * radius i) * ∑ j, wavenumber j * Real.sin (wavenumber j * radius i) *
      (cTransform phi j / (1 - 6 * phi / Real.pi * cTransform phi j)) * (25 / 256)) := by
    intro i
    unfold hArr inverseSphericalFT
    simp only [kGrid_eq, rGrid_eq, dk_eq, hH, fin_mul, sum_fin]
    have h2 : (2 * Real.pi ^ 2) ≠ 0 := by positivity
    rw [fin_div _ (radius_pos i).ne', fin_div _ h2, fin_inj, div_div, mul_comm (radius i), one_div_mul_eq_div]
  refine ⟨fun i => cTransform phi i / (1 - 6 * phi / Real.pi * cTransform phi i), _, fun i => ?_, fun i => ?_, fun i => rfl, fun i => ?_⟩
  · have h1 := hne i
    rw [eq_comm, ← sub_eq_zero]
    have : cTransform phi i + 6 * phi / Real.pi * cTransform phi i * (cTransform phi i / (1 - 6 * phi / Real.pi * cTransform phi i)) =
        cTransform phi i / (1 - 6 * phi / Real.pi * cTransform phi i) := by
      rw [eq_div_iff h1, add_mul, mul_assoc, div_mul_cancel₀ _ h1]; ring
    rw [this, sub_self]
  · have h1 := hne i
    rw [eq_div_iff h1, add_mul, mul_assoc, div_mul_cancel₀ _ h1]; ring
  · have hg : gArr phi = fun i => fin (if radius i < 1 then 0 else 1 + 1 / (2 * Real.pi ^ 2 * radius i) *
        ∑ j, wavenumber j * Real.sin (wavenumber j * radius i) * (cTransform phi j / (1 - 6 * phi / Real.pi * cTransform phi j)) * (25 / 256)) := by
      funext i
      unfold gArr
      rw [rGrid_eq]
      by_cases h1 : radius i < 1
      · rw [if_neg (not_le.mpr h1), if_pos h1]
      · rw [if_pos (not_lt.mp h1), if_neg h1, hh, fin_add, add_comm]
    unfold radialDistPy
    rw [hg, rGrid_eq]
    exact hs radius _ radius_mono i

theorem sum_squares (n : ℕ) : 6 * ∑ i ∈ Finset.range n, ((i:ℝ) + 1) ^ 2 = (n:ℝ) * (n + 1) * (2 * n + 1) := by
  induction n with
  | zero => simp
  | succ n ih => rw [Finset.sum_range_succ, mul_add, ih]; push_cast; ring

theorem cc_bound {phi r : ℝ} (h0 : 0 ≤ phi) (h1 : phi ≤ 0.07) (hr0 : 0 ≤ r) : |cc r phi| ≤ if r ≤ 1 then 1.75 else 0 := by
  unfold cc
  by_cases h : r > 1
  · rw [if_pos h, if_neg (not_le.mpr h), abs_zero]
  · rw [if_neg h, if_pos (not_lt.mp h)]
    have hr1 : r ≤ 1 := not_lt.mp h
    have hq : (0.748:ℝ) ≤ (1 - phi) ^ 4 := by
      have : (0.93:ℝ) ^ 4 ≤ (1 - phi) ^ 4 := by gcongr; linarith
      exact le_trans (by norm_num) this
    have hq0 : (0:ℝ) < (1 - phi) ^ 4 := by linarith
    have e : c0 phi + c1 phi * r + c3 phi * r ^ 3 =
        (-(1 + 2 * phi) ^ 2 + 6 * phi * (1 + phi * 0.5) ^ 2 * r - phi * 0.5 * (1 + 2 * phi) ^ 2 * r ^ 3) / (1 - phi) ^ 4 := by
      unfold c3 c1 c0; field_simp; ring
    rw [e, abs_div, abs_of_pos hq0, div_le_iff₀ hq0]
    have hb : |(-(1 + 2 * phi) ^ 2 + 6 * phi * (1 + phi * 0.5) ^ 2 * r - phi * 0.5 * (1 + 2 * phi) ^ 2 * r ^ 3)| ≤ 1.3 := by
      have hp2 : (1 + 2 * phi) ^ 2 ≤ 1.2996 := by nlinarith
      have hr3 : r ^ 3 ≤ r := by nlinarith [mul_nonneg hr0 hr0, mul_nonneg hr0 (sub_nonneg.mpr hr1)]
      have hr3' : 0 ≤ r ^ 3 := by positivity
      have hA : 0 ≤ phi * r := mul_nonneg h0 hr0
      have hA1 : phi * r ≤ 0.07 := by nlinarith
      have hB : 0 ≤ phi * r ^ 3 := mul_nonneg h0 hr3'
      have hB1 : phi * r ^ 3 ≤ phi * r := mul_le_mul_of_nonneg_left hr3 h0
      have hs : (1:ℝ) ≤ (1 + phi * 0.5) ^ 2 := by nlinarith
      have hs' : (1 + phi * 0.5) ^ 2 ≤ 1.08 := by nlinarith
      have t1 : 6 * phi * (1 + phi * 0.5) ^ 2 * r ≤ 6 * 0.07 * 1.08 := by
        rw [show 6 * phi * (1 + phi * 0.5) ^ 2 * r = 6 * (phi * r) * (1 + phi * 0.5) ^ 2 by ring]
        gcongr
      have t1' : 6 * (phi * r) ≤ 6 * phi * (1 + phi * 0.5) ^ 2 * r := by
        rw [show 6 * phi * (1 + phi * 0.5) ^ 2 * r = 6 * (phi * r) * (1 + phi * 0.5) ^ 2 by ring]
        nlinarith
      have t2 : phi * 0.5 * (1 + 2 * phi) ^ 2 * r ^ 3 ≤ phi * r := by
        rw [show phi * 0.5 * (1 + 2 * phi) ^ 2 * r ^ 3 = (phi * r ^ 3) * (0.5 * (1 + 2 * phi) ^ 2) by ring]
        calc (phi * r ^ 3) * (0.5 * (1 + 2 * phi) ^ 2) ≤ (phi * r ^ 3) * 1 := by gcongr; linarith
          _ ≤ phi * r := by linarith
      have t2' : 0 ≤ phi * 0.5 * (1 + 2 * phi) ^ 2 * r ^ 3 := by positivity
      have hp2' : (1:ℝ) ≤ (1 + 2 * phi) ^ 2 := by nlinarith
      rw [abs_le]
      constructor <;> linarith
    calc _ ≤ (1.3:ℝ) := hb
      _ ≤ 1.75 * (1 - phi) ^ 4 := by linarith

/-- C91, dilute samples: up to a volume fraction of 7 percent the hypothesis of `C91_radial_distribution` holds, whatever the sample. -/
theorem C91_dilute {phi : ℝ} (h0 : 0 ≤ phi) (h1 : phi ≤ 0.07) (i : Fin 2048) : |6 * phi / Real.pi * cTransform phi i| < 1 := by
  have hk := wavenumber_pos i
  have hterm : ∀ j : Fin 2048, |radius j * Real.sin (wavenumber i * radius j) * cc (radius j) phi * (1 / 200)| ≤
      wavenumber i * (if j.val < 200 then (1.75 / 200 ^ 3) * ((j.val : ℝ) + 1) ^ 2 else 0) := by
    intro j
    have hr := radius_pos j
    have hc := cc_bound h0 h1 hr.le
    have hiff : radius j ≤ 1 ↔ j.val < 200 := by
      unfold radius
      constructor
      · intro h
        have h' : (j.val : ℝ) + 1 ≤ 200 := by linarith
        have : j.val + 1 ≤ 200 := by exact_mod_cast h'
        omega
      · intro h
        have : (j.val : ℝ) + 1 ≤ 200 := by exact_mod_cast h
        linarith
    have hsin : |Real.sin (wavenumber i * radius j)| ≤ wavenumber i * radius j := by
      have := Real.abs_sin_le_abs (x := wavenumber i * radius j)
      rwa [abs_of_pos (mul_pos hk hr)] at this
    rw [abs_mul, abs_mul, abs_mul, abs_of_pos hr, abs_of_pos (by norm_num : (0:ℝ) < 1 / 200)]
    calc radius j * |Real.sin (wavenumber i * radius j)| * |cc (radius j) phi| * (1 / 200)
        ≤ radius j * (wavenumber i * radius j) * (if radius j ≤ 1 then 1.75 else 0) * (1 / 200) := by gcongr
      _ = wavenumber i * (if j.val < 200 then (1.75 / 200 ^ 3) * ((j.val : ℝ) + 1) ^ 2 else 0) := by
        by_cases h : j.val < 200
        · rw [if_pos h, if_pos (hiff.mpr h)]; unfold radius; ring
        · rw [if_neg h, if_neg (fun h' => h (hiff.mp h'))]; ring
  have hsum : ∑ j : Fin 2048, (if j.val < 200 then (1.75 / 200 ^ 3) * ((j.val : ℝ) + 1) ^ 2 else 0) ≤ 0.588 := by
    rw [Fin.sum_univ_eq_sum_range (fun j => if j < 200 then (1.75 / 200 ^ 3) * ((j : ℝ) + 1) ^ 2 else 0) 2048,
      ← Finset.sum_filter]
    have : (Finset.range 2048).filter (fun j => j < 200) = Finset.range 200 := by
      ext j; simp only [Finset.mem_filter, Finset.mem_range]; omega
    rw [this, ← Finset.mul_sum]
    have := sum_squares 200
    norm_num at this ⊢
    try linarith
  have hC : |cTransform phi i| ≤ 4 * Real.pi * 0.588 := by
    unfold cTransform
    rw [abs_mul, abs_of_pos (by positivity : 0 < 4 * Real.pi / wavenumber i)]
    calc 4 * Real.pi / wavenumber i * |∑ j, radius j * Real.sin (wavenumber i * radius j) * cc (radius j) phi * (1 / 200)|
        ≤ 4 * Real.pi / wavenumber i * ∑ j : Fin 2048, wavenumber i * (if j.val < 200 then (1.75 / 200 ^ 3) * ((j.val : ℝ) + 1) ^ 2 else 0) := by
          gcongr
          exact (Finset.abs_sum_le_sum_abs _ _).trans (Finset.sum_le_sum fun j _ => hterm j)
      _ = 4 * Real.pi * ∑ j : Fin 2048, (if j.val < 200 then (1.75 / 200 ^ 3) * ((j.val : ℝ) + 1) ^ 2 else 0) := by
          rw [← Finset.mul_sum]; field_simp
      _ ≤ 4 * Real.pi * 0.588 := by gcongr
  have hpi := Real.pi_pos
  rw [abs_mul, abs_of_nonneg (by positivity : 0 ≤ 6 * phi / Real.pi)]
  calc 6 * phi / Real.pi * |cTransform phi i| ≤ 6 * 0.07 / Real.pi * (4 * Real.pi * 0.588) := by gcongr
    _ = 6 * 0.07 * 4 * 0.588 := by field_simp
    _ < 1 := by norm_num

/-- a spline that passes through its data exists, and a volume fraction of 5 percent meets the hypotheses -/
theorem exists_spline (c : ℝ) : ∃ spline : Spline, PassesThroughData spline ∧ ∀ r y x, (∀ i, r i ≠ x) → spline r y x = fin c := by
  classical
  refine ⟨fun r y x => if h : ∃ i, r i = x then y h.choose else fin c, ?_, ?_⟩
  · intro r y hr i
    have h : ∃ i', r i' = r i := ⟨i, rfl⟩
    simp only [dif_pos h, fin_inj]
    rw [hr.injective h.choose_spec]
  · intro r y x h
    simp only
    rw [dif_neg]
    rintro ⟨i, hi⟩
    exact h i hi

example : ∃ spline : Spline, PassesThroughData spline ∧ ∃ v, radialDistPy spline 0.05 (radius 300) = fin v := by
  obtain ⟨spline, hs, -⟩ := exists_spline 0
  obtain ⟨H, h, -, -, -, hv⟩ := C91_radial_distribution spline hs 0.05 (fun i hi => by
    have := C91_dilute (phi := 0.05) (by norm_num) (by norm_num) i
    rw [hi] at this; norm_num at this)
  exact ⟨spline, hs, _, hv 300⟩

/-! ### C92 -/

/-- Specification: the transforms undo each other on a grid of `n` radii `dr, 2 dr, ...` and as many wavenumbers -/
def TransformsInvert (n : ℕ) (d : ℝ) : Prop :=
  ∀ f : Fin n → ℝ, ∀ i, inverseSphericalFT (sphericalFT f (grid n (1 / (n * d))) (grid n d) d) (grid n (1 / (n * d))) (grid n d) (1 / (n * d)) i = fin (f i)

theorem grid_pos {n : ℕ} {d : ℝ} (hd : 0 < d) (i : Fin n) : 0 < grid n d i := by unfold grid; positivity

/-- C92 is false of the code: with the step of wavenumbers used by `radial_dist_py` (one over the largest radius) no size of the grid makes
the transforms undo each other; a spike is returned with less than two thirds of its height. -/
theorem C92_transforms_refuted (n : ℕ) (hn : 0 < n) {d : ℝ} (hd : 0 < d) :
    ¬ TransformsInvert n d ∧
    ∀ i, ∃ v, inverseSphericalFT (sphericalFT (Pi.single i 1) (grid n (1 / (n * d))) (grid n d) d) (grid n (1 / (n * d))) (grid n d) (1 / (n * d)) i = fin v ∧
      0 ≤ v ∧ v ≤ 2 / Real.pi := by
  have hn' : (0:ℝ) < n := by exact_mod_cast hn
  have hdk : 0 < 1 / (n * d) := by positivity
  have key : ∀ i, ∃ v, inverseSphericalFT (sphericalFT (Pi.single i 1) (grid n (1 / (n * d))) (grid n d) d) (grid n (1 / (n * d))) (grid n d) (1 / (n * d)) i = fin v ∧
      0 ≤ v ∧ v ≤ 2 / Real.pi := by
    intro i
    set k := grid n (1 / (n * d)) with hk
    set r := grid n d with hr
    have hkp : ∀ j, 0 < k j := grid_pos hdk
    have hri : 0 < r i := grid_pos hd i
    have hft : ∀ j, sphericalFT (Pi.single i 1) k r d j = fin (4 * Real.pi * (r i * Real.sin (k j * r i) * d) / k j) := by
      intro j
      unfold sphericalFT
      rw [fin_div _ (hkp j).ne', fin_inj, Finset.sum_eq_single i]
      · simp
      · intro b _ hb; simp [Pi.single_eq_of_ne hb]
      · simp
    have h2 : (2 * Real.pi ^ 2) ≠ 0 := by positivity
    refine ⟨2 / Real.pi * (1 / n) * ∑ j, Real.sin (k j * r i) ^ 2, ?_, by positivity, ?_⟩
    · unfold inverseSphericalFT
      simp only [hft, fin_mul, sum_fin]
      rw [fin_div _ hri.ne', fin_div _ h2, fin_inj, Finset.mul_sum, Finset.sum_div, Finset.sum_div]
      refine Finset.sum_congr rfl fun j _ => ?_
      have := (hkp j).ne'
      have := hri.ne'
      have := Real.pi_ne_zero
      field_simp
      ring
    · have : ∑ j, Real.sin (k j * r i) ^ 2 ≤ n := by
        calc ∑ j, Real.sin (k j * r i) ^ 2 ≤ ∑ j : Fin n, (1:ℝ) := Finset.sum_le_sum fun j _ => Real.sin_sq_le_one _
          _ = n := by simp
      calc 2 / Real.pi * (1 / n) * ∑ j, Real.sin (k j * r i) ^ 2 ≤ 2 / Real.pi * (1 / n) * n := by gcongr
        _ = 2 / Real.pi := by field_simp
  refine ⟨fun h => ?_, key⟩
  obtain ⟨v, hv, -, hle⟩ := key ⟨0, hn⟩
  have := h (Pi.single ⟨0, hn⟩ 1) ⟨0, hn⟩
  rw [hv, Pi.single_eq_same, fin_inj] at this
  rw [this, le_div_iff₀ Real.pi_pos] at hle
  linarith [Real.pi_gt_three]

/-- C92, what holds: both transforms are linear, on any grid without a zero wavenumber or radius. -/
theorem C92_linear_partial {n m : ℕ} (f g : Fin n → ℝ) (F G : Fin m → ℝ) (a b : ℝ) (k : Fin m → ℝ) (r : Fin n → ℝ) (d d' : ℝ)
    (hk : ∀ i, k i ≠ 0) (hr : ∀ i, r i ≠ 0) :
    (∀ i, sphericalFT (fun j => a * f j + b * g j) k r d i = fin a * sphericalFT f k r d i + fin b * sphericalFT g k r d i) ∧
    ∀ i, inverseSphericalFT (fun j => fin (a * F j + b * G j)) k r d' i =
      fin a * inverseSphericalFT (fun j => fin (F j)) k r d' i + fin b * inverseSphericalFT (fun j => fin (G j)) k r d' i := by
  constructor
  · intro i
    unfold sphericalFT
    simp only [fin_div _ (hk i), fin_mul, fin_add, fin_inj]
    simp only [mul_add, add_mul, Finset.sum_add_distrib]
    rw [add_div]
    congr 1
    · rw [Finset.mul_sum, Finset.mul_sum, Finset.sum_div, Finset.sum_div, Finset.mul_sum]
      exact Finset.sum_congr rfl fun j _ => by ring
    · rw [Finset.mul_sum, Finset.mul_sum, Finset.sum_div, Finset.sum_div, Finset.mul_sum]
      exact Finset.sum_congr rfl fun j _ => by ring
  · intro i
    have h2 : (2 * Real.pi ^ 2) ≠ 0 := by positivity
    unfold inverseSphericalFT
    simp only [fin_mul, sum_fin, fin_div _ (hr i), fin_div _ h2, fin_add, fin_inj]
    simp only [mul_add, add_mul, Finset.sum_add_distrib]
    rw [add_div, add_div]
    congr 1
    · simp only [Finset.sum_div, Finset.mul_sum]
      exact Finset.sum_congr rfl fun j _ => by ring
    · simp only [Finset.sum_div, Finset.mul_sum]
      exact Finset.sum_congr rfl fun j _ => by ring

example : ∀ i : Fin 2048, kGrid i ≠ 0 ∧ rGrid i ≠ 0 := fun i => by
  rw [kGrid_eq, rGrid_eq]; exact ⟨(wavenumber_pos i).ne', (radius_pos i).ne'⟩

/-! ### C93 -/

/-- C93: the phase sum of `field_phase_py`.  Whenever it succeeds, its modulus is at most 1, it is 1 for `qd = 0`, changing the sign of
`qd` conjugates it, and it is the mean of the phases of the sampled positions, each of which is one of `r_d`. -/
theorem C93_field_phase {m : ℕ} (spline : Spline) (qd phi : ℝ) (n : ℕ) (r_d : Fin m → ℝ) (draw : Fin n → Fin m) (z : ℂ)
    (h : fieldPhasePy spline qd phi n r_d draw = .ok z) :
    ‖z‖ ≤ 1 ∧ (qd = 0 → z = 1) ∧ fieldPhasePy spline (-qd) phi n r_d draw = .ok ((starRingEnd ℂ) z) ∧
    z = (∑ s, (⟨Real.cos (qd * r_d (draw s)), Real.sin (qd * r_d (draw s))⟩ : ℂ)) / n := by
  unfold fieldPhasePy at h
  split at h
  · exact (nomatch h)
  rename_i hok
  split at h
  · exact (nomatch h)
  rename_i hn
  have hn' : (n:ℂ) ≠ 0 := by exact_mod_cast hn
  have hz := Except.ok.inj h
  have hexp : ∀ (q x : ℝ), Complex.exp (Complex.I * (q:ℂ) * ((x:ℝ):ℂ)) = ⟨Real.cos (q * x), Real.sin (q * x)⟩ := by
    intro q x
    rw [show Complex.I * (q:ℂ) * ((x:ℝ):ℂ) = ((q * x : ℝ) : ℂ) * Complex.I by push_cast; ring]
    apply Complex.ext
    · rw [Complex.exp_ofReal_mul_I_re]
    · rw [Complex.exp_ofReal_mul_I_im]
  have hmean : z = (∑ s, (⟨Real.cos (qd * r_d (draw s)), Real.sin (qd * r_d (draw s))⟩ : ℂ)) / n := by
    rw [← hz]
    simp only [hexp]
    ring
  have hnorm : ∀ s, ‖(⟨Real.cos (qd * r_d (draw s)), Real.sin (qd * r_d (draw s))⟩ : ℂ)‖ = 1 := by
    intro s
    rw [← hexp, show Complex.I * (qd:ℂ) * ((r_d (draw s):ℝ):ℂ) = ((qd * r_d (draw s) : ℝ) : ℂ) * Complex.I by push_cast; ring]
    exact Complex.norm_exp_ofReal_mul_I _
  refine ⟨?_, ?_, ?_, hmean⟩
  · rw [hmean, norm_div, Complex.norm_natCast]
    have hnp : (0:ℝ) < n := by exact_mod_cast Nat.pos_of_ne_zero hn
    rw [div_le_one hnp]
    calc ‖∑ s, (⟨Real.cos (qd * r_d (draw s)), Real.sin (qd * r_d (draw s))⟩ : ℂ)‖
        ≤ ∑ s : Fin n, ‖(⟨Real.cos (qd * r_d (draw s)), Real.sin (qd * r_d (draw s))⟩ : ℂ)‖ := norm_sum_le _ _
      _ = n := by simp [hnorm]
  · intro h0
    rw [hmean, h0]
    have : (⟨1, 0⟩ : ℂ) = 1 := rfl
    simp [this, hn']
  · unfold fieldPhasePy
    rw [if_neg hok, if_neg hn]
    congr 1
    rw [hmean, map_div₀, map_sum, Complex.conj_natCast]
    simp only [hexp]
    rw [one_div_mul_eq_div]
    congr 1
    refine Finset.sum_congr rfl fun s _ => ?_
    apply Complex.ext
    · simp
    · simp

/-- C93: positions can be drawn exactly when no value of g(r) at the positions is negative and they do not all vanish; in particular a
negative value (the spline may overshoot at contact) is a ValueError, and then nothing is returned. -/
theorem C93_negative_g {m : ℕ} (spline : Spline) (qd phi : ℝ) (n : ℕ) (r_d : Fin m → ℝ) (draw : Fin n → Fin m) (g : Fin m → ℝ)
    (hg : ∀ i, radialDistPy spline phi (r_d i) = fin (g i)) (hsum : 0 < ∑ i, g i) (hn : n ≠ 0) :
    (fieldPhasePy spline qd phi n r_d draw = .error .valueError ↔ ∃ i, g i < 0) := by
  have hp : ∀ i, probG spline phi r_d i = fin (g i / ∑ k, g k) := by
    intro i
    unfold probG
    simp only [hg, sum_fin]
    rw [fin_div _ hsum.ne']
  have hiff : choiceOk (probG spline phi r_d) ↔ ∀ i, 0 ≤ g i := by
    unfold choiceOk
    simp only [hp, fin_le, sum_fin, ← Finset.sum_div, div_self hsum.ne', and_true]
    exact forall_congr' fun i => ⟨fun h => by
      have := mul_nonneg h hsum.le
      rwa [div_mul_cancel₀ _ hsum.ne'] at this, fun h => div_nonneg h hsum.le⟩
  unfold fieldPhasePy
  by_cases hc : choiceOk (probG spline phi r_d)
  · rw [if_neg (not_not.mpr hc), if_neg hn]
    constructor
    · intro h; exact (nomatch h)
    · rintro ⟨i, hi⟩
      exact absurd (hiff.mp hc i) (not_le.mpr hi)
  · rw [if_pos hc]
    simp only [true_iff]
    by_contra hcon
    push Not at hcon
    exact hc (hiff.mpr hcon)

/-- positions between the grid points of the spline: both outcomes of C93 occur -/
example : ∃ (spline : Spline) (z : ℂ), PassesThroughData spline ∧
    fieldPhasePy (m := 2) spline 0.7 0.05 3 (fun i => if i = 0 then 1 / 300 else 1 / 700) (fun _ => 1) = .ok z := by
  obtain ⟨spline, hs, hc⟩ := exists_spline 2
  have hnode : ∀ x : ℝ, x < 1 / 200 → ∀ i, rGrid i ≠ x := by
    intro x hx i
    rw [rGrid_eq]
    unfold radius
    have : (0:ℝ) ≤ i.val := Nat.cast_nonneg _
    intro h
    linarith
  have hg : ∀ i : Fin 2, radialDistPy spline 0.05 ((fun i => if i = 0 then 1 / 300 else 1 / 700 : Fin 2 → ℝ) i) = fin 2 := by
    intro i
    apply hc
    apply hnode
    fin_cases i <;> norm_num
  have := (C93_negative_g (m := 2) spline 0.7 0.05 3 (fun i => if i = 0 then 1 / 300 else 1 / 700) (fun _ => 1) (fun _ => 2) hg (by norm_num) (by norm_num)).not
  simp only [not_exists, not_lt, zero_le_two, implies_true, iff_true] at this
  unfold fieldPhasePy at this
  unfold fieldPhasePy
  split at this
  · exact absurd rfl this
  · rename_i h
    exact ⟨spline, _, hs, by rw [if_neg h, if_neg (by norm_num : ¬ (3:ℕ) = 0)]⟩

/-! ### C55: tabulated phases -/

/-- C55 for `field_phase_data`: a table of at least two rows is interpolated exactly as `factor_data` interpolates the same table; a file
with fewer rows cannot be read. -/
theorem C55_field_phase_data_partial (q : ℝ) (xs ys : List ℝ) (hl : xs.length = ys.length) :
    (2 ≤ xs.length → fieldPhaseData q (xs.zip ys) = Structure.factorData q ys xs) ∧
    (xs.length < 2 → fieldPhaseData q (xs.zip ys) = .error .indexError) := by
  match xs, ys, hl with
  | [], [], _ => exact ⟨fun h => absurd h (by simp), fun _ => rfl⟩
  | [_], [_], _ => exact ⟨fun h => absurd h (by simp), fun _ => rfl⟩
  | x0 :: x1 :: xs, y0 :: y1 :: ys, h =>
    refine ⟨fun _ => ?_, fun h' => absurd h' (by simp)⟩
    have : ¬ ((y0 :: y1 :: ys).length ≠ (x0 :: x1 :: xs).length) := not_not.mpr h.symm
    simp only [Structure.factorData, if_neg this]
    rfl

/-! ### C94 -/

/-- Specification: the sum over shells of `4 pi r^2 density g(r)` times `pi J0(q r)`, by the trapezoidal rule at `n` radii up to 10 -/
noncomputable def shellIntegral (spline : Spline) (j0 : ℝ → ℝ) (density qd phi : ℝ) (n : ℕ) : XF :=
  ∑ i ∈ Finset.range (n - 1), fin (linspace 0 10 n (i + 1) - linspace 0 10 n i) *
    (fin (density * 4 * Real.pi * linspace 0 10 n i ^ 2 * Real.pi * j0 (qd * linspace 0 10 n i)) * radialDistPy spline phi (linspace 0 10 n i) +
      fin (density * 4 * Real.pi * linspace 0 10 n (i + 1) ^ 2 * Real.pi * j0 (qd * linspace 0 10 n (i + 1))) * radialDistPy spline phi (linspace 0 10 n (i + 1))) / fin 2

/-- C94 is false of the code: `phase_factor` weights the pair distribution with one eighth of the number density (in units of the
diameter) that the distribution was computed for, `rho = 6 phi/pi`; so wherever that integral is a non-zero number, the result is one
eighth of it. -/
theorem C94_density_refuted (spline : Spline) (j0 : ℝ → ℝ) (qd phi : ℝ) (n : ℕ) (g : ℝ → ℝ)
    (hg : ∀ i < n, radialDistPy spline phi (linspace 0 10 n i) = fin (g (linspace 0 10 n i))) :
    ∃ v, shellIntegral spline j0 (rho phi) qd phi n = fin v ∧ phaseFactor spline j0 qd phi n = fin (v / 8) ∧
      (v ≠ 0 → phaseFactor spline j0 qd phi n ≠ shellIntegral spline j0 (rho phi) qd phi n) := by
  have hval : ∀ density, shellIntegral spline j0 density qd phi n = fin (density * ∑ i ∈ Finset.range (n - 1), (linspace 0 10 n (i + 1) - linspace 0 10 n i) *
    (4 * Real.pi * linspace 0 10 n i ^ 2 * Real.pi * j0 (qd * linspace 0 10 n i) * g (linspace 0 10 n i) +
      4 * Real.pi * linspace 0 10 n (i + 1) ^ 2 * Real.pi * j0 (qd * linspace 0 10 n (i + 1)) * g (linspace 0 10 n (i + 1))) / 2) := by
    intro density
    unfold shellIntegral
    rw [Finset.mul_sum, ← sum_fin]
    refine Finset.sum_congr rfl fun i hi => ?_
    rw [Finset.mem_range] at hi
    rw [hg i (by omega), hg (i + 1) (by omega)]
    simp only [fin_mul, fin_add, fin_div _ (two_ne_zero), fin_inj]
    ring
  have hpf : phaseFactor spline j0 qd phi n = shellIntegral spline j0 (3 * phi / (4 * Real.pi)) qd phi n := rfl
  refine ⟨_, hval _, ?_, ?_⟩
  · rw [hpf, hval, fin_inj]; unfold rho; ring
  · intro hv
    rw [hpf, hval, hval]
    intro h
    rw [fin_inj] at h
    apply hv
    have hd : 3 * phi / (4 * Real.pi) = rho phi / 8 := by unfold rho; ring
    rw [hd] at h
    linarith

/-- the hypotheses are met, with a non-zero integral, at a volume fraction of 5 percent: four radii (0, 10/3, 20/3, 10), of which the
second is not a grid point of the spline -/
example : ∃ (spline : Spline) (j0 : ℝ → ℝ), PassesThroughData spline ∧
    phaseFactor spline j0 1 0.05 4 ≠ shellIntegral spline j0 (rho 0.05) 1 0.05 4 := by
  obtain ⟨spline, hs, hc⟩ := exists_spline 1
  obtain ⟨H, h, -, -, -, hv⟩ := C91_radial_distribution spline hs 0.05 (fun i hi => by
    have := C91_dilute (phi := 0.05) (by norm_num) (by norm_num) i
    rw [hi] at this; norm_num at this)
  classical
  have hfin : ∀ x, ∃ v, radialDistPy spline 0.05 x = fin v := by
    intro x
    by_cases hx : ∃ i, radius i = x
    · obtain ⟨i, rfl⟩ := hx; exact ⟨_, hv i⟩
    · exact ⟨1, hc _ _ _ (fun i hi => hx ⟨i, by rw [← rGrid_eq]; exact hi⟩)⟩
  choose g hg using hfin
  have hg1 : g (10 / 3) = 1 := by
    have h1 : radialDistPy spline 0.05 (10 / 3) = fin 1 := by
      apply hc
      intro i hi
      rw [rGrid_eq] at hi
      unfold radius at hi
      have h2 : 3 * ((i.val : ℝ) + 1) = 2000 := by linarith
      have h3 : 3 * (i.val + 1) = 2000 := by exact_mod_cast h2
      omega
    rw [hg, fin_inj] at h1
    exact h1
  set j0 : ℝ → ℝ := fun x => if x = 10 / 3 then 1 else 0
  refine ⟨spline, j0, hs, ?_⟩
  obtain ⟨v, h1, h2, h3⟩ := C94_density_refuted spline j0 1 0.05 4 g (fun i _ => hg _)
  apply h3
  rintro rfl
  unfold shellIntegral at h1
  have l0 : linspace 0 10 4 0 = 0 := by norm_num [linspace]
  have l1 : linspace 0 10 4 1 = 10 / 3 := by norm_num [linspace]
  have l2 : linspace 0 10 4 2 = 20 / 3 := by norm_num [linspace]
  have l3 : linspace 0 10 4 3 = 10 := by norm_num [linspace]
  have j0v : j0 (1 * 0) = 0 ∧ j0 (1 * (10 / 3)) = 1 ∧ j0 (1 * (20 / 3)) = 0 ∧ j0 (1 * 10) = 0 := by
    refine ⟨?_, ?_, ?_, ?_⟩ <;> simp only [j0] <;> norm_num
  simp only [Nat.reduceSub, Finset.sum_range_succ, Finset.sum_range_zero, zero_add, Nat.reduceAdd, l0, l1, l2, l3, j0v.1, j0v.2.1, j0v.2.2.1, j0v.2.2.2,
    hg, hg1, fin_mul, fin_add, fin_div _ (two_ne_zero), fin_inj] at h1
  have : 0 < rho 0.05 := by unfold rho; positivity
  have hpos : 0 < rho 0.05 * Real.pi * Real.pi := by positivity
  nlinarith

end Verif.Props
