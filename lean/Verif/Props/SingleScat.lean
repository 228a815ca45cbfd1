import Verif.Lemmas.Trapz
import Verif.Lemmas.Fresnel
import Mathlib.Analysis.SpecialFunctions.Trigonometric.Inverse
import Mathlib.Topology.Algebra.Order.LiminfLimsup
import Mathlib.Analysis.SpecialFunctions.Exp

/-!
# C56, C57, C59, C60, C75, C76, C78: the single-scattering model
-/

namespace Verif.Props
open Verif.SingleScat Verif.XF Verif.Fresnel Verif.Lemmas
open Verif (XF PyErr)
open Verif.Traj (linspace)

/-! ### C59: integration of cross sections -/

/-- C59.  The integral of a differential cross section is linear in the cross section. -/
theorem C59_integral_linear (n : ℕ) (f g factor angles : ℕ → ℝ) (c azi : ℝ) :
    integrateCS n (fun i => c * f i + g i) factor angles azi =
      c * integrateCS n f factor angles azi + integrateCS n g factor angles azi := by
  unfold integrateCS
  have : (fun i => (c * f i + g i) * factor i * Real.sin (angles i)) =
      fun i => (c * (f i * factor i * Real.sin (angles i))) + g i * factor i * Real.sin (angles i) := by funext i; ring
  rw [this, trapz_add, trapz_const_mul]
  ring

/-- C59.  It is non-negative, and monotone in the cross section, on every non-decreasing grid of angles between 0 and π. -/
theorem C59_integral_monotone (n : ℕ) (f g factor angles : ℕ → ℝ) (azi : ℝ) (ha : 0 ≤ azi)
    (hgrid : ∀ i, i + 1 < n → angles i ≤ angles (i + 1)) (hrange : ∀ i < n, 0 ≤ angles i ∧ angles i ≤ Real.pi)
    (hfac : ∀ i < n, 0 ≤ factor i) :
    ((∀ i < n, 0 ≤ f i) → 0 ≤ integrateCS n f factor angles azi) ∧
    ((∀ i < n, f i ≤ g i) → integrateCS n f factor angles azi ≤ integrateCS n g factor angles azi) := by
  have hw : ∀ i < n, 0 ≤ factor i * Real.sin (angles i) := fun i hi =>
    mul_nonneg (hfac i hi) (Real.sin_nonneg_of_nonneg_of_le_pi (hrange i hi).1 (hrange i hi).2)
  constructor
  · intro h
    refine mul_nonneg ha (trapz_nonneg n _ _ hgrid fun i hi => ?_)
    rw [mul_assoc]; exact mul_nonneg (h i hi) (hw i hi)
  · intro h
    refine mul_le_mul_of_nonneg_left (trapz_mono n _ _ _ hgrid fun i hi => ?_) ha
    rw [mul_assoc, mul_assoc]; exact mul_le_mul_of_nonneg_right (h i hi) (hw i hi)

/-- C59.  Integrating over a grid is integrating up to one of its points and from there on. -/
theorem C59_integral_additive (m k : ℕ) (f factor angles : ℕ → ℝ) (azi : ℝ) :
    integrateCS (m + k + 1) f factor angles azi = integrateCS (m + 1) f factor angles azi +
      integrateCS (k + 1) (fun i => f (m + i)) (fun i => factor (m + i)) (fun i => angles (m + i)) azi := by
  unfold integrateCS
  rw [trapz_split]; ring

example : ∀ i, i + 1 < 3 → (fun i : ℕ => (i : ℝ)) i ≤ (fun i : ℕ => (i : ℝ)) (i + 1) := by intro i _; simp

/-! ### C57: core-shell particles -/

/-- C57.  For every particle with strictly increasing positive radii the volume fractions of the layers are positive, there is one per
layer, each is the layer's share of the particle volume, and they add up to the volume fraction of the particles. -/
theorem C57_core_shell (phi : ℝ) (radii : List ℝ) (hphi : 0 < phi) (hne : radii ≠ []) (hpos : ∀ r ∈ radii, 0 < r)
    (hinc : radii.Pairwise (· < ·)) :
    (vfArray phi radii).length = radii.length ∧ (∀ v ∈ vfArray phi radii, 0 < v) ∧ (vfArray phi radii).sum = phi ∧
    ∀ (i : ℕ) (r0 r1 rmax v : ℝ), (0 :: radii)[i]? = some r0 → radii[i]? = some r1 → radii.getLast? = some rmax →
      (vfArray phi radii)[i]? = some v →
      v = phi * ((4 / 3 * Real.pi * r1 ^ 3 - 4 / 3 * Real.pi * r0 ^ 3) / (4 / 3 * Real.pi * rmax ^ 3)) := by
  have hlast : (0 :: radii).getLast (by simp) = radii.getLast hne := List.getLast_cons hne
  have hR : 0 < radii.getLast hne := hpos _ (List.getLast_mem hne)
  have hsum : ∀ (l : List ℝ) (r R : ℝ), (List.zipWith (fun r1 r0 => (r1 ^ 3 - r0 ^ 3) / R ^ 3 * phi) l (r :: l)).sum =
      ((r :: l).getLast (by simp) ^ 3 - r ^ 3) / R ^ 3 * phi := by
    intro l
    induction l with
    | nil => intro r R; simp
    | cons a t ih =>
      intro r R
      simp only [List.zipWith_cons_cons, List.sum_cons, ih a R]
      rw [List.getLast_cons (by simp : a :: t ≠ [])]
      ring
  refine ⟨by simp [vfArray], ?_, ?_, ?_⟩
  · intro v hv
    unfold vfArray at hv
    obtain ⟨i, hi, rfl⟩ := List.getElem_of_mem hv
    simp only [List.length_zipWith, List.length_cons] at hi
    simp only [List.getElem_zipWith, hlast]
    have hi' : i < radii.length := by omega
    have : (0 :: radii)[i]'(by simp; omega) < radii[i] ∧ 0 ≤ (0 :: radii)[i]'(by simp; omega) := by
      cases i with
      | zero => exact ⟨by simpa using hpos _ (List.getElem_mem hi'), by simp⟩
      | succ j =>
        simp only [List.getElem_cons_succ]
        exact ⟨List.pairwise_iff_getElem.mp hinc j (j+1) (by omega) hi' (by omega), (hpos _ (List.getElem_mem _)).le⟩
    have h3 : 0 < radii[i] ^ 3 - ((0 :: radii)[i]'(by simp; omega)) ^ 3 := by
      have := pow_lt_pow_left₀ this.1 this.2 (by norm_num : 3 ≠ 0)
      linarith
    positivity
  · unfold vfArray
    rw [hsum, hlast]
    field_simp
    ring
  · intro i r0 r1 rmax v h0 h1 hm hv
    unfold vfArray at hv
    rw [List.getElem?_zipWith, h1, h0] at hv
    simp only [Option.some.injEq] at hv
    rw [List.getLast?_eq_some_getLast hne] at hm
    have hm := Option.some.inj hm
    rw [← hv, hlast, hm]
    rw [hm] at hR
    have := Real.pi_pos
    field_simp

example : ([1, 2, 2.5] : List ℝ).Pairwise (· < ·) ∧ ∀ r ∈ ([1, 2, 2.5] : List ℝ), 0 < r := by
  constructor
  · norm_num [List.pairwise_cons]
  · intro r hr; simp at hr; rcases hr with rfl | rfl | rfl <;> norm_num

/-! ### C76: the number density -/

/-- C76.  For a mixture of two species with positive concentrations, or a single species, the number density is such that the particles
fill exactly the volume fraction: it splits into number densities in the ratio of the concentrations whose particle volumes add up to
the volume fraction. -/
theorem C76_number_density_partial (phi r r2 ca cb : ℝ) (hr : 0 < r) (hr2 : 0 < r2) (ha : 0 < ca) (hb : 0 < cb) :
    (∃ na nb, rho phi r r2 (some (ca, cb)) = na + nb ∧ na * cb = nb * ca ∧
      na * (4 / 3 * Real.pi * r ^ 3) + nb * (4 / 3 * Real.pi * r2 ^ 3) = phi) ∧
    rho phi r r2 none * (4 / 3 * Real.pi * r ^ 3) = phi ∧
    rho phi r r2 (some (ca, 0)) * (4 / 3 * Real.pi * r ^ 3) = phi := by
  have hπ := Real.pi_pos
  have single : numberDensity phi r * (4 / 3 * Real.pi * r ^ 3) = phi := by
    unfold numberDensity; field_simp
  refine ⟨⟨3 * phi / (4 * Real.pi) * (ca / (ca * r ^ 3 + cb * r2 ^ 3)), 3 * phi / (4 * Real.pi) * (cb / (ca * r ^ 3 + cb * r2 ^ 3)), ?_, ?_, ?_⟩,
    single, ?_⟩
  · simp only [rho, ha.ne', hb.ne', or_self, if_false]
    field_simp
    ring
  · ring
  · have : ca * r ^ 3 + cb * r2 ^ 3 ≠ 0 := by positivity
    field_simp
  · simp only [rho, or_true, if_true]; exact single

/-- C76, refuted when the first species is the absent one: with concentrations [0, 1] the radius of the absent species is used, so the
particles present fill the volume fraction only if the two radii agree. -/
theorem C76_number_density_refuted (phi r r2 : ℝ) (hp : 0 < phi) (hr : 0 < r) (hr2 : 0 < r2) :
    rho phi r r2 (some (0, 1)) * (4 / 3 * Real.pi * r2 ^ 3) = phi ↔ r = r2 := by
  have hπ := Real.pi_pos
  simp only [rho, true_or, if_true, numberDensity]
  have e : 3 * phi / (4 * Real.pi * r ^ 3) * (4 / 3 * Real.pi * r2 ^ 3) = phi * (r2 ^ 3 / r ^ 3) := by field_simp
  rw [e]
  constructor
  · intro h
    have h1 : r2 ^ 3 / r ^ 3 = 1 := by
      have : phi * (r2 ^ 3 / r ^ 3) = phi * 1 := by rw [h, mul_one]
      exact mul_left_cancel₀ hp.ne' this
    rw [div_eq_one_iff_eq (by positivity)] at h1
    exact ((pow_left_inj₀ hr2.le hr.le (by norm_num)).mp h1).symm
  · rintro rfl
    field_simp

/-- Non-vacuity of C76: two species of radii 1 and 2 in equal numbers, 9/20 of the volume. -/
example : rho (9/20) 1 2 (some (1, 1)) * (4 * Real.pi) = 3 / 10 := by
  obtain ⟨na, nb, h1, h2, h3⟩ := (C76_number_density_partial (9/20) 1 2 1 1 one_pos two_pos one_pos one_pos).1
  have : na = nb := by linarith
  subst this
  rw [h1]; nlinarith

end Verif.Props
