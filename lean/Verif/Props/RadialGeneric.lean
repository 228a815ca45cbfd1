import Verif.Props.Radial
import Mathlib.Algebra.Polynomial.Roots

/-!
# C91 for all volume fractions but finitely many
-/

namespace Verif.Props
open Verif.Radial Verif.XF
open Verif.Structure (cc c0 c1 c3)
open Verif (XF PyErr)
open Polynomial

theorem cTransform_split (i : Fin 2048) : ∃ a b d : ℝ, ∀ phi : ℝ,
    6 * phi / Real.pi * cTransform phi i = phi * (c0 phi * a + c1 phi * b + c3 phi * d) := by
  have key : ∀ phi (j : Fin 2048), radius j * Real.sin (wavenumber i * radius j) * cc (radius j) phi * (1 / 200) =
      c0 phi * (if radius j > 1 then 0 else radius j * Real.sin (wavenumber i * radius j) * (1 / 200)) +
      c1 phi * (if radius j > 1 then 0 else radius j * Real.sin (wavenumber i * radius j) * (1 / 200) * radius j) +
      c3 phi * (if radius j > 1 then 0 else radius j * Real.sin (wavenumber i * radius j) * (1 / 200) * radius j ^ 3) := by
    intro phi j
    unfold cc
    split_ifs
    · ring
    · ring
  have hk := (wavenumber_pos i).ne'
  have hp := Real.pi_pos.ne'
  refine ⟨24 / wavenumber i * ∑ j, (if radius j > 1 then 0 else radius j * Real.sin (wavenumber i * radius j) * (1 / 200)),
    24 / wavenumber i * ∑ j, (if radius j > 1 then 0 else radius j * Real.sin (wavenumber i * radius j) * (1 / 200) * radius j),
    24 / wavenumber i * ∑ j, (if radius j > 1 then 0 else radius j * Real.sin (wavenumber i * radius j) * (1 / 200) * radius j ^ 3), fun phi => ?_⟩
  unfold cTransform
  simp only [key, Finset.sum_add_distrib, ← Finset.mul_sum]
  generalize (∑ j, (if radius j > 1 then (0:ℝ) else radius j * Real.sin (wavenumber i * radius j) * (1 / 200))) = A
  generalize (∑ j, (if radius j > 1 then (0:ℝ) else radius j * Real.sin (wavenumber i * radius j) * (1 / 200) * radius j)) = B
  generalize (∑ j, (if radius j > 1 then (0:ℝ) else radius j * Real.sin (wavenumber i * radius j) * (1 / 200) * radius j ^ 3)) = D
  field_simp
  ring

theorem bad_union {n m : ℕ} (B : Fin n → Finset ℝ) (hB : ∀ i, (B i).card ≤ m) : ∃ bad : Finset ℝ, bad.card ≤ n * m ∧ ∀ phi, phi ∉ bad → ∀ i, phi ∉ B i := by
  classical
  refine ⟨Finset.univ.biUnion B, ?_, fun phi hphi i h => hphi (Finset.mem_biUnion.mpr ⟨i, Finset.mem_univ i, h⟩)⟩
  calc (Finset.univ.biUnion B).card ≤ ∑ i, (B i).card := Finset.card_biUnion_le
    _ ≤ ∑ _i : Fin n, m := Finset.sum_le_sum fun i _ => hB i
    _ = n * m := by simp

theorem solvable_generic : ∃ bad : Finset ℝ, bad.card ≤ 8192 ∧ ∀ phi : ℝ, phi ∉ bad → ∀ i, 6 * phi / Real.pi * cTransform phi i ≠ 1 := by
  classical
  have hpoly : ∀ i : Fin 2048, ∃ B : Finset ℝ, B.card ≤ 4 ∧ ∀ phi : ℝ, phi ∉ B → 6 * phi / Real.pi * cTransform phi i ≠ 1 := by
    intro i
    obtain ⟨a, b, d, hs⟩ := cTransform_split i
    set p : ℝ[X] := (1 - X) ^ 4 - X * (-(C a * (1 + C 2 * X) ^ 2) + C (6 * b) * (X * (1 + C 0.5 * X) ^ 2) -
      C (0.5 * d) * (X * (1 + C 2 * X) ^ 2)) with hp
    have hev : ∀ phi, p.eval phi = (1 - phi) ^ 4 - phi * (-(a * (1 + 2 * phi) ^ 2) + 6 * b * (phi * (1 + 0.5 * phi) ^ 2) -
        0.5 * d * (phi * (1 + 2 * phi) ^ 2)) := by
      intro phi; simp [hp]
    have hne : p ≠ 0 := by
      intro h
      have := hev 0
      rw [h] at this
      norm_num at this
    have hdeg : p.natDegree ≤ 4 := by
      rw [hp]; compute_degree
    refine ⟨p.roots.toFinset, (Multiset.toFinset_card_le _).trans ((card_roots' p).trans hdeg), fun phi hphi h1 => ?_⟩
    rw [Multiset.mem_toFinset, mem_roots hne, IsRoot.def, hev] at hphi
    rw [hs] at h1
    have h4 : (1 - phi) ^ 4 ≠ 0 := by
      intro h0
      unfold c0 c1 c3 c0 at h1
      rw [h0] at h1
      norm_num at h1
    apply hphi
    unfold c0 c1 c3 c0 at h1
    simp only [div_eq_mul_inv] at h1
    have hy := inv_mul_cancel₀ h4
    linear_combination (-(1 - phi) ^ 4) * h1 + (phi * (-(a * (1 + 2 * phi) ^ 2) + 6 * b * (phi * (1 + 0.5 * phi) ^ 2) -
        0.5 * d * (phi * (1 + 2 * phi) ^ 2))) * hy
  choose B hB hbad using hpoly
  obtain ⟨bad, h1, h2⟩ := bad_union B hB
  exact ⟨bad, h1, fun phi hphi i => hbad i phi (h2 phi hphi i)⟩
/-- C91, all samples.  For every volume fraction outside a finite set (at most four values for each of the 2048 wavenumbers, and 1, where the direct
correlation function is infinite), none of them between 0 and 7 percent, the Ornstein-Zernike equation can be solved at every wavenumber of the
grid, and `radial_dist_py` at its grid points is 0 inside contact and one plus the inverse transform of the solution outside. -/
theorem C91_generic : ∃ bad : Finset ℝ, bad.card ≤ 8193 ∧ (∀ phi ∈ bad, phi < 0 ∨ 0.07 < phi) ∧
    ∀ phi : ℝ, phi ∉ bad → ∀ spline : Spline, PassesThroughData spline →
      ∃ H h : Fin 2048 → ℝ,
        (∀ i, H i = cTransform phi i + 6 * phi / Real.pi * cTransform phi i * H i) ∧
        (∀ i, 1 + 6 * phi / Real.pi * H i = 1 / (1 - 6 * phi / Real.pi * cTransform phi i)) ∧
        (∀ i, h i = 1 / (2 * Real.pi ^ 2 * radius i) * ∑ j, wavenumber j * Real.sin (wavenumber j * radius i) * H j * (25 / 256)) ∧
        ∀ i, radialDistPy spline phi (radius i) = fin (if radius i < 1 then 0 else 1 + h i) := by
  classical
  obtain ⟨bad, hcard, hbad⟩ := solvable_generic
  refine ⟨insert 1 (bad.filter fun phi => phi < 0 ∨ 0.07 < phi), ?_, ?_, ?_⟩
  · exact (Finset.card_insert_le _ _).trans (Nat.succ_le_succ ((Finset.card_filter_le _ _).trans hcard))
  · intro phi h
    rw [Finset.mem_insert, Finset.mem_filter] at h
    rcases h with rfl | h
    · right; norm_num
    · exact h.2
  · intro phi h spline hs
    rw [Finset.mem_insert, Finset.mem_filter, not_or, not_and_or] at h
    refine C91_radial_distribution spline hs phi fun i => ?_
    rcases h.2 with h2 | h2
    · exact hbad phi h2 i
    · push Not at h2
      intro hi
      have := C91_dilute h2.1 h2.2 i
      rw [hi] at this
      norm_num at this

/-- among volume fractions of 55 to 60 percent, all but finitely many are covered -/
example : ∃ phi : ℝ, 0.55 < phi ∧ phi < 0.6 ∧ ∃ spline : Spline, PassesThroughData spline ∧ ∃ v, radialDistPy spline phi (radius 300) = fin v := by
  obtain ⟨bad, -, -, hbad⟩ := C91_generic
  obtain ⟨phi, h1, h2⟩ := (Set.Ioo_infinite (show (0.55:ℝ) < 0.6 by norm_num)).exists_notMem_finset bad
  obtain ⟨spline, hs, -⟩ := exists_spline 0
  obtain ⟨H, h, -, -, -, hv⟩ := hbad phi h2 spline hs
  exact ⟨phi, h1.1, h1.2, spline, hs, _, hv 300⟩

end Verif.Props
