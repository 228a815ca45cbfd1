import Verif.Model.XF
import Mathlib.Tactic.FieldSimp
import Mathlib.Tactic.Positivity

/-!
# Scaling extended floats by a positive number

Every operation on floats, infinities and nan included, commutes with a change of the unit of length.
-/

namespace Verif.Props
open XF
open Verif (XF)

namespace UnitScale

theorem infOfSign_scale {s : ℝ} (hs : 0 < s) (a : ℝ) : infOfSign (s * a) = infOfSign a := by
  have h : s * a < 0 ↔ a < 0 := by rw [← neg_pos, ← mul_neg, mul_pos_iff_of_pos_left hs, neg_pos]
  simp only [infOfSign, mul_pos_iff_of_pos_left hs, h]

theorem infOfSign_pos {s : ℝ} (hs : 0 < s) : infOfSign s = pinf := if_pos hs

theorem infOfSign_neg {s : ℝ} (hs : 0 < s) : infOfSign (-s) = ninf := by
  unfold infOfSign
  rw [if_neg (by linarith), if_pos (by linarith)]

theorem mul_pinf {s : ℝ} (hs : 0 < s) : (fin s * pinf : XF) = pinf := infOfSign_pos hs

theorem mul_ninf {s : ℝ} (hs : 0 < s) : (fin s * ninf : XF) = ninf := infOfSign_neg hs

theorem mul_nan (s : ℝ) : (fin s * nan : XF) = nan := rfl

theorem mul_infOfSign {s : ℝ} (hs : 0 < s) (a : ℝ) : fin s * infOfSign a = infOfSign a := by
  unfold infOfSign
  split
  · exact mul_pinf hs
  · split
    · exact mul_ninf hs
    · rfl

theorem mul_mul (s t : ℝ) (hs : 0 < s) (ht : 0 < t) (x : XF) : fin s * (fin t * x) = fin (s * t) * x := by
  cases x with
  | fin a => simp only [fin_mul, mul_assoc]
  | pinf => rw [mul_pinf ht, mul_pinf hs, mul_pinf (mul_pos hs ht)]
  | ninf => rw [mul_ninf ht, mul_ninf hs, mul_ninf (mul_pos hs ht)]
  | nan => rfl

theorem one_mul' (x : XF) : fin 1 * x = x := by
  cases x with
  | fin a => simp only [fin_mul, _root_.one_mul]
  | pinf => exact mul_pinf one_pos
  | ninf => exact mul_ninf one_pos
  | nan => rfl

theorem scale_add {s : ℝ} (hs : 0 < s) (x y : XF) : fin s * x + fin s * y = fin s * (x + y) := by
  cases x <;> cases y <;> simp only [mul_pinf hs, mul_ninf hs, mul_nan, fin_mul, fin_add, mul_add]
  all_goals first
    | rfl
    | exact (mul_pinf hs).symm
    | exact (mul_ninf hs).symm

theorem scale_mul_right {s : ℝ} (hs : 0 < s) (x y : XF) : x * (fin s * y) = fin s * (x * y) := by
  cases x with
  | fin a =>
    cases y with
    | fin b => simp only [fin_mul]; rw [fin_inj]; ring
    | pinf => rw [mul_pinf hs]; exact (mul_infOfSign hs a).symm
    | ninf => rw [mul_ninf hs]; exact (mul_infOfSign hs (-a)).symm
    | nan => rfl
  | pinf =>
    cases y with
    | fin b =>
      rw [fin_mul]
      change infOfSign (s * b) = fin s * infOfSign b
      rw [infOfSign_scale hs, mul_infOfSign hs]
    | pinf => rw [mul_pinf hs]; exact (mul_pinf hs).symm
    | ninf => rw [mul_ninf hs]; exact (mul_ninf hs).symm
    | nan => rfl
  | ninf =>
    cases y with
    | fin b =>
      rw [fin_mul]
      change infOfSign (-(s * b)) = fin s * infOfSign (-b)
      rw [← mul_neg, infOfSign_scale hs, mul_infOfSign hs]
    | pinf => rw [mul_pinf hs]; exact (mul_ninf hs).symm
    | ninf => rw [mul_ninf hs]; exact (mul_pinf hs).symm
    | nan => rfl
  | nan => rfl

theorem scale_mul_left {s : ℝ} (hs : 0 < s) (x y : XF) : (fin s * x) * y = fin s * (x * y) := by
  have comm : ∀ a b : XF, a * b = b * a := by
    intro a b
    cases a <;> cases b <;> first | rfl | (simp only [fin_mul, mul_comm])
  rw [comm, scale_mul_right hs, comm x y]

theorem div_scale_left {s : ℝ} (hs : 0 < s) (x y : XF) : (fin s * x) / y = fin s * (x / y) := by
  cases x with
  | fin a =>
    rw [fin_mul]
    cases y with
    | fin b =>
      by_cases hb : b = 0
      · subst hb
        change XF.div _ _ = fin s * XF.div _ _
        simp only [XF.div, if_true]
        rw [infOfSign_scale hs, mul_infOfSign hs]
      · rw [fin_div _ hb, fin_div _ hb, fin_mul, mul_div_assoc]
    | pinf => change fin 0 = fin s * fin 0; rw [fin_mul, mul_zero]
    | ninf => change fin 0 = fin s * fin 0; rw [fin_mul, mul_zero]
    | nan => rfl
  | pinf =>
    rw [mul_pinf hs]
    cases y with
    | fin b =>
      change XF.div _ _ = fin s * XF.div _ _
      simp only [XF.div]
      split
      · exact (mul_pinf hs).symm
      · exact (mul_ninf hs).symm
    | _ => rfl
  | ninf =>
    rw [mul_ninf hs]
    cases y with
    | fin b =>
      change XF.div _ _ = fin s * XF.div _ _
      simp only [XF.div]
      split
      · exact (mul_ninf hs).symm
      · exact (mul_pinf hs).symm
    | _ => rfl
  | nan => rfl

theorem div_scale_right {s : ℝ} (hs : 0 < s) (x y : XF) : x / (fin s * y) = fin (1 / s) * (x / y) := by
  have hs' : 0 < 1 / s := by positivity
  cases y with
  | fin b =>
    rw [fin_mul]
    cases x with
    | fin a =>
      by_cases hb : b = 0
      · subst hb
        change XF.div _ _ = fin _ * XF.div _ _
        simp only [XF.div, mul_zero, if_true]
        rw [mul_infOfSign hs']
      · rw [fin_div _ hb, fin_div _ (mul_ne_zero hs.ne' hb), fin_mul, fin_inj]
        field_simp
    | pinf =>
      change XF.div _ _ = fin _ * XF.div _ _
      simp only [XF.div, mul_nonneg_iff_of_pos_left hs]
      split
      · exact (mul_pinf hs').symm
      · exact (mul_ninf hs').symm
    | ninf =>
      change XF.div _ _ = fin _ * XF.div _ _
      simp only [XF.div, mul_nonneg_iff_of_pos_left hs]
      split
      · exact (mul_ninf hs').symm
      · exact (mul_pinf hs').symm
    | nan => rfl
  | pinf =>
    rw [mul_pinf hs]
    cases x with
    | fin a => change fin 0 = fin _ * fin 0; rw [fin_mul, mul_zero]
    | _ => rfl
  | ninf =>
    rw [mul_ninf hs]
    cases x with
    | fin a => change fin 0 = fin _ * fin 0; rw [fin_mul, mul_zero]
    | _ => rfl
  | nan => cases x <;> rfl

theorem ratio {s : ℝ} (hs : 0 < s) (x y : XF) : (fin s * x) / (fin s * y) = x / y := by
  rw [div_scale_right hs, div_scale_left hs, mul_mul _ _ (by positivity) hs, one_div_mul_cancel hs.ne', one_mul']

theorem neg_scale {s : ℝ} (hs : 0 < s) (x : XF) : -(fin s * x) = fin s * -x := by
  cases x with
  | fin a => simp only [fin_mul, fin_neg]; rw [fin_inj]; ring
  | pinf => rw [mul_pinf hs]; exact (mul_ninf hs).symm
  | ninf => rw [mul_ninf hs]; exact (mul_pinf hs).symm
  | nan => rfl

theorem scale_sub {s : ℝ} (hs : 0 < s) (x y : XF) : fin s * x - fin s * y = fin s * (x - y) := by
  have e : ∀ a b : XF, a - b = a + -b := fun a b => rfl
  rw [e, e, neg_scale hs, scale_add hs]

theorem sqrt_scale {s : ℝ} (hs : 0 < s) (x : XF) : XF.sqrt (fin (s ^ 2) * x) = fin s * XF.sqrt x := by
  have hs2 : 0 < s ^ 2 := by positivity
  cases x with
  | fin a =>
    rw [fin_mul]
    unfold XF.sqrt
    simp only [mul_nonneg_iff_of_pos_left hs2]
    split
    · rw [fin_mul, fin_inj, Real.sqrt_mul hs2.le, Real.sqrt_sq hs.le]
    · rfl
  | pinf => rw [mul_pinf hs2]; exact (mul_pinf hs).symm
  | ninf => rw [mul_ninf hs2]; rfl
  | nan => rfl

theorem scale_lt {s : ℝ} (hs : 0 < s) (x y : XF) : fin s * x < fin s * y ↔ x < y := by
  cases x <;> cases y <;> simp only [mul_pinf hs, mul_ninf hs, mul_nan, fin_mul, fin_lt, mul_lt_mul_iff_right₀ hs]
  all_goals exact Iff.rfl


end UnitScale
end Verif.Props
