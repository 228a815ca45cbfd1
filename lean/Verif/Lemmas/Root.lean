import Verif.Model.Root
import Verif.Spec

namespace Verif.Root
open Classical XF

theorem refraction1_fin {t a b : ℝ} (hb : b ≠ 0) :
    refraction1 (fin t) (fin a) (fin b) =
      if 1 < |a / b * Real.sin t| then nan else fin (Real.arcsin (a / b * Real.sin t)) := by
  unfold refraction1
  simp only [XF.fin_div a hb, XF.sin_fin, XF.fin_mul, XF.abs_fin, XF.fin_lt]
  split
  · rfl
  · next h =>
    have h' := not_lt.mp h
    rw [abs_le] at h'
    exact XF.arcsin_of_mem h'.1 h'.2

theorem magnitude_fin (x y z : ℝ) :
    magnitude (fin x) (fin y) (fin z) = fin (Real.sqrt (x * x + y * y + z * z)) := by
  unfold magnitude
  simp only [XF.abs_fin, XF.fin_mul, XF.fin_add, abs_mul_abs_self]
  have : 0 ≤ x * x + y * y + z * z := by nlinarith [mul_self_nonneg x, mul_self_nonneg y, mul_self_nonneg z]
  simp [XF.sqrt, this]

theorem selectEvents2_eq_sel {α : Type} [Zero α] {r c : ℕ} (a : Fin r → Fin c → α) (ev : Fin c → ℕ)
    (h : ∀ j, ev j ≤ r) : selectEvents2 a (fun j => (ev j : ℤ)) = .ok (sel a ev) := by
  unfold selectEvents2 sel
  have hh : ∀ j : Fin c, 0 < ((ev j : ℕ) : ℤ) → (((ev j : ℕ) : ℤ) - 1).toNat < r ∧ j.val < c := by
    intro j hj
    have := h j
    constructor
    · omega
    · exact j.2
  rw [dif_pos hh]
  congr 1
  funext j
  by_cases hj : 0 < ev j
  · have h1 : ev j - 1 < r := by have := h j; omega
    have h2 : (0:ℤ) < (ev j : ℤ) := by exact_mod_cast hj
    rw [dif_pos h2, dif_pos (show 0 < ev j ∧ ev j - 1 < r from ⟨hj, h1⟩)]
    have : ((ev j : ℤ) - 1).toNat = ev j - 1 := by omega
    simp [this]
  · have h2 : ¬ (0:ℤ) < (ev j : ℤ) := by omega
    rw [dif_neg h2, dif_neg (by tauto)]

theorem sel_zero {α : Type} [Zero α] {r c : ℕ} (a : Fin r → Fin c → α) (ev : Fin c → ℕ) (j : Fin c)
    (h : ev j = 0) : sel a ev j = 0 := by
  unfold sel; rw [dif_neg]; omega

theorem sel_pos {α : Type} [Zero α] {r c : ℕ} (a : Fin r → Fin c → α) (ev : Fin c → ℕ) (j : Fin c)
    (h : 0 < ev j) (h2 : ev j - 1 < r) : sel a ev j = a ⟨ev j - 1, h2⟩ j := by
  unfold sel; rw [dif_pos ⟨h, h2⟩]

end Verif.Root
