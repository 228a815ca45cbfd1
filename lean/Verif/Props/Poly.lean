import Verif.Model.Structure
import Mathlib.Tactic.FieldSimp
import Mathlib.Tactic.Positivity
import Mathlib.Tactic.Ring
import Mathlib.Tactic.Linarith

/-!
# C74: polydisperse mixtures
-/

namespace Verif.Props
open Verif.Structure

theorem polyT3_pos (p : ℝ) : 0 < polyT3 p := by unfold polyT3; positivity

/-- what enters the structure factor is the number density and sums over species that are linear in the concentration -/
theorem polyRaw_congr (q phi : ℝ) (l l' : List Species) (hrho : polyRho phi l = polyRho phi l')
    (hs : ∀ f : Species → ℂ, (∀ c d p, f ⟨c, d, p⟩ = c * f ⟨1, d, p⟩) → spSum l f = spSum l' f) :
    polyRaw q phi l = polyRaw q phi l' := by
  unfold polyRaw
  simp only [hrho]
  repeat rw [hs]
  all_goals
    intro c d p
    push_cast
    ring

theorem factorPoly_congr (q phi : ℝ) (l l' : List Species) (hrho : polyRho phi l = polyRho phi l')
    (hs : ∀ f : Species → ℂ, (∀ c d p, f ⟨c, d, p⟩ = c * f ⟨1, d, p⟩) → spSum l f = spSum l' f) :
    factorPoly q phi l = factorPoly q phi l' := by
  unfold factorPoly; rw [polyRaw_congr q phi l l' hrho hs]

/-- C74.  A species described as a mixture of two identical species has the structure factor of the single species, for every
splitting of the concentration. -/
theorem C74_identical_species (q phi c d pdi : ℝ) (hc0 : c ≠ 0) (hc1 : c ≠ 1) (hd : d ≠ 0) :
    factorPoly q phi [⟨c, d, pdi⟩, ⟨1 - c, d, pdi⟩] = factorPoly q phi [⟨1, d, pdi⟩] := by
  have h1 : 1 - c ≠ 0 := sub_ne_zero.mpr (Ne.symm hc1)
  have hT := (polyT3_pos pdi).ne'
  apply factorPoly_congr
  · simp only [polyRho, hc0, h1, or_self, if_false, rhoOf, phiSplit]
    have : c / (1 - c) * (d / d) ^ 3 * polyT3 pdi / polyT3 pdi + 1 = 1 / (1 - c) := by
      field_simp; ring
    rw [this]
    have := Real.pi_ne_zero
    field_simp
    ring
  · intro f hf
    simp only [spSum, List.map_cons, List.map_nil, List.sum_cons, List.sum_nil]
    rw [hf c, hf (1 - c)]
    push_cast; ring

/-- C74.  A species of concentration 0, whatever its size and polydispersity, does not change the structure factor, in either
position. -/
theorem C74_absent_species (q phi c d pdi d' pdi' : ℝ) :
    factorPoly q phi [⟨c, d, pdi⟩, ⟨0, d', pdi'⟩] = factorPoly q phi [⟨0, d', pdi'⟩, ⟨c, d, pdi⟩] ∧
    (c ≠ 0 → factorPoly q phi [⟨c, d, pdi⟩, ⟨0, d', pdi'⟩] = factorPoly q phi [⟨c, d, pdi⟩]) := by
  constructor
  · apply factorPoly_congr
    · simp only [polyRho]; by_cases h : c = 0 <;> simp [h]
    · intro f hf
      simp only [spSum, List.map_cons, List.map_nil, List.sum_cons, List.sum_nil]
      ring
  · intro hc
    apply factorPoly_congr
    · simp [polyRho, hc]
    · intro f hf
      simp only [spSum, List.map_cons, List.map_nil, List.sum_cons, List.sum_nil]
      rw [hf 0]; push_cast; ring

/-- C74, the densities of a mixture, stated with the mean volumes v_i = (π/6) d_i³ (1+p_i²)(1+2p_i²) of Schulz-distributed spheres:
the volume fractions of the two species are positive and add up to the total, the number densities are in the ratio of the
concentrations, and each is volume fraction over mean volume. -/
theorem C74_mixture_densities (phi : ℝ) (s0 s1 : Species) (hp : 0 < phi) (hc0 : 0 < s0.c) (hc1 : 0 < s1.c) (hd0 : 0 < s0.d)
    (hd1 : 0 < s1.d) (h0 : 1e-5 ≤ s0.pdi) (h1 : 1e-5 ≤ s1.pdi) (v0 v1 : ℝ)
    (hv0 : v0 = Real.pi / 6 * s0.d ^ 3 * ((1 + s0.pdi ^ 2) * (1 + 2 * s0.pdi ^ 2)))
    (hv1 : v1 = Real.pi / 6 * s1.d ^ 3 * ((1 + s1.pdi ^ 2) * (1 + 2 * s1.pdi ^ 2))) :
    ∃ phi0 phi1 : ℝ, 0 < phi0 ∧ 0 < phi1 ∧ phi0 + phi1 = phi ∧ phi0 / v0 / (phi1 / v1) = s0.c / s1.c ∧
      polyRho phi [s0, s1] = phi0 / v0 + phi1 / v1 := by
  have e0 : polyT3 s0.pdi = (1 + s0.pdi ^ 2) * (1 + 2 * s0.pdi ^ 2) := by
    unfold polyT3 clampPdi; rw [if_neg (not_lt.mpr h0)]; ring
  have e1 : polyT3 s1.pdi = (1 + s1.pdi ^ 2) * (1 + 2 * s1.pdi ^ 2) := by
    unfold polyT3 clampPdi; rw [if_neg (not_lt.mpr h1)]; ring
  have t0 := polyT3_pos s0.pdi
  have t1 := polyT3_pos s1.pdi
  rw [← e0] at hv0
  rw [← e1] at hv1
  have hπ := Real.pi_pos
  have hv0p : 0 < v0 := by rw [hv0]; positivity
  have hv1p : 0 < v1 := by rw [hv1]; positivity
  have hsplit : phiSplit phi s0 s1 = (phi * (s0.c * v0) / (s0.c * v0 + s1.c * v1), phi * (s1.c * v1) / (s0.c * v0 + s1.c * v1)) := by
    unfold phiSplit
    have e : s0.c / s1.c * (s0.d / s1.d) ^ 3 * polyT3 s0.pdi / polyT3 s1.pdi + 1 = (s0.c * v0 + s1.c * v1) / (s1.c * v1) := by
      rw [hv0, hv1]; field_simp
    have hD : s0.c * v0 + s1.c * v1 ≠ 0 := by positivity
    simp only [e, one_div_div, Prod.mk.injEq]
    constructor
    · field_simp; ring
    · field_simp
  refine ⟨(phiSplit phi s0 s1).1, (phiSplit phi s0 s1).2, ?_, ?_, ?_, ?_, ?_⟩
  · rw [hsplit]; positivity
  · rw [hsplit]; positivity
  · unfold phiSplit; simp
  · rw [hsplit]; field_simp
  · have r0 : ∀ x, rhoOf x s0 = x / v0 := by
      intro x; unfold rhoOf; rw [hv0]; field_simp
    have r1 : ∀ x, rhoOf x s1 = x / v1 := by
      intro x; unfold rhoOf; rw [hv1]; field_simp
    simp only [polyRho, hc0.ne', hc1.ne', or_self, if_false, r0, r1]

/-- C74.  The order in which the two species are listed does not matter. -/
theorem C74_species_order (q phi : ℝ) (s0 s1 : Species) (hc0 : 0 < s0.c) (hc1 : 0 < s1.c) (hd0 : 0 < s0.d) (hd1 : 0 < s1.d) :
    factorPoly q phi [s0, s1] = factorPoly q phi [s1, s0] := by
  have t0 := polyT3_pos s0.pdi
  have t1 := polyT3_pos s1.pdi
  have hπ := Real.pi_pos
  apply factorPoly_congr
  · simp only [polyRho, hc0.ne', hc1.ne', or_self, if_false, rhoOf, phiSplit]
    have h0 : 0 < s0.c * (polyT3 s0.pdi * s0.d ^ 3) := by positivity
    have h1 : 0 < s1.c * (polyT3 s1.pdi * s1.d ^ 3) := by positivity
    have e : s0.c / s1.c * (s0.d / s1.d) ^ 3 * polyT3 s0.pdi / polyT3 s1.pdi + 1 =
        (s0.c * (polyT3 s0.pdi * s0.d ^ 3) + s1.c * (polyT3 s1.pdi * s1.d ^ 3)) / (s1.c * (polyT3 s1.pdi * s1.d ^ 3)) := by
      field_simp
    have e' : s1.c / s0.c * (s1.d / s0.d) ^ 3 * polyT3 s1.pdi / polyT3 s0.pdi + 1 =
        (s0.c * (polyT3 s0.pdi * s0.d ^ 3) + s1.c * (polyT3 s1.pdi * s1.d ^ 3)) / (s0.c * (polyT3 s0.pdi * s0.d ^ 3)) := by
      field_simp; ring
    rw [e, e', one_div_div, one_div_div]
    have hD : s0.c * (polyT3 s0.pdi * s0.d ^ 3) + s1.c * (polyT3 s1.pdi * s1.d ^ 3) ≠ 0 := by positivity
    field_simp
    ring
  · intro f hf
    simp only [spSum, List.map_cons, List.map_nil, List.sum_cons, List.sum_nil]
    ring

/-- C74.  A polydispersity index below 1e-5 gives the same result as 1e-5. -/
theorem C74_small_pdi (q phi c d p p' : ℝ) (h : p ≤ 1e-5) (h' : p' ≤ 1e-5) :
    factorPoly q phi [⟨c, d, p⟩] = factorPoly q phi [⟨c, d, p'⟩] := by
  have e : clampPdi p = clampPdi p' := by
    have : ∀ x : ℝ, x ≤ 1e-5 → clampPdi x = 1e-5 := by
      intro x hx; unfold clampPdi; split_ifs with g
      · rfl
      · exact le_antisymm hx (not_lt.mp g)
    rw [this p h, this p' h']
  simp only [factorPoly, polyRaw, polyRho, rhoOf, spSum, List.map_cons, List.map_nil, List.sum_cons, List.sum_nil, polyT, polyT0, polyT1, polyT2, polyT3, e]

example : (0.3 : ℝ) ≠ 0 ∧ (0.3 : ℝ) ≠ 1 ∧ (2 : ℝ) ≠ 0 := by norm_num
example : 0 < (⟨0.9, 200, 0.05⟩ : Species).c ∧ 0 < (⟨0.9, 200, 0.05⟩ : Species).d ∧ 1e-5 ≤ (⟨0.9, 200, 0.05⟩ : Species).pdi := by norm_num

end Verif.Props
