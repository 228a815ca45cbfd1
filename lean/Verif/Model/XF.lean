import Mathlib.Data.Real.Basic
import Mathlib.Analysis.SpecialFunctions.Trigonometric.Inverse
import Mathlib.Tactic.Linarith
import Mathlib.Tactic.NormNum
import Mathlib.Algebra.BigOperators.Fin

/-!
# Idealised floating-point numbers

`XF` models a NumPy float64 without rounding: a real number, one of the two infinities, or NaN.
There is a single (unsigned) zero; `x / 0` is `+inf` for `x > 0`, `-inf` for `x < 0` and NaN for `x = 0`,
which is IEEE-754 division by the positive zero.

This file models no function of /repo; it is the number type used by the models of functions in
/repo/structcol that produce or test for NaN or infinity.
-/

namespace Verif

/-- A float64 without rounding. -/
inductive XF where
  | fin (r : ℝ)
  | pinf
  | ninf
  | nan

namespace XF

noncomputable section
open Classical

instance : Inhabited XF := ⟨fin 0⟩

/-- `np.isnan` -/
def isNaN : XF → Prop
  | nan => True
  | _ => False

/-- IEEE addition without rounding. -/
def add : XF → XF → XF
  | nan, _ => nan
  | _, nan => nan
  | fin a, fin b => fin (a + b)
  | pinf, ninf => nan
  | ninf, pinf => nan
  | pinf, _ => pinf
  | _, pinf => pinf
  | ninf, _ => ninf
  | _, ninf => ninf

/-- IEEE negation (of the unsigned zero model). -/
def neg : XF → XF
  | nan => nan
  | fin a => fin (-a)
  | pinf => ninf
  | ninf => pinf

/-- the infinity with the sign of `a`, or NaN when `a = 0`. -/
def infOfSign (a : ℝ) : XF := if 0 < a then pinf else if a < 0 then ninf else nan

/-- IEEE multiplication without rounding. -/
def mul : XF → XF → XF
  | nan, _ => nan
  | _, nan => nan
  | fin a, fin b => fin (a * b)
  | fin a, pinf => infOfSign a
  | pinf, fin a => infOfSign a
  | fin a, ninf => infOfSign (-a)
  | ninf, fin a => infOfSign (-a)
  | pinf, pinf => pinf
  | ninf, ninf => pinf
  | pinf, ninf => ninf
  | ninf, pinf => ninf

/-- IEEE division without rounding (zero is unsigned and treated as +0). -/
def div : XF → XF → XF
  | nan, _ => nan
  | _, nan => nan
  | fin a, fin b => if b = 0 then infOfSign a else fin (a / b)
  | fin _, _ => fin 0
  | pinf, fin b => if 0 ≤ b then pinf else ninf
  | ninf, fin b => if 0 ≤ b then ninf else pinf
  | _, _ => nan

instance : Add XF := ⟨add⟩
instance : Neg XF := ⟨neg⟩
instance : Sub XF := ⟨fun a b => add a (neg b)⟩
instance : Mul XF := ⟨mul⟩
instance : Div XF := ⟨div⟩

/-- IEEE `<`: false as soon as one side is NaN. -/
def lt : XF → XF → Prop
  | fin a, fin b => a < b
  | fin _, pinf => True
  | ninf, fin _ => True
  | ninf, pinf => True
  | _, _ => False

/-- IEEE `<=`. -/
def le : XF → XF → Prop
  | fin a, fin b => a ≤ b
  | fin _, pinf => True
  | ninf, fin _ => True
  | ninf, pinf => True
  | pinf, pinf => True
  | ninf, ninf => True
  | _, _ => False

instance : LT XF := ⟨lt⟩
instance : LE XF := ⟨le⟩

/-- `np.abs` -/
def abs : XF → XF
  | nan => nan
  | fin a => fin |a|
  | _ => pinf

/-- Lift a real function that is total on ℝ and for which NumPy returns NaN at ±inf (sin, cos, …). -/
def mapFin (f : ℝ → ℝ) : XF → XF
  | fin a => fin (f a)
  | _ => nan

/-- `np.sin` -/
def sin : XF → XF := mapFin Real.sin
/-- `np.cos` -/
def cos : XF → XF := mapFin Real.cos

/-- `np.arcsin`: NaN outside [-1,1]. -/
def arcsin : XF → XF
  | fin a => if -1 ≤ a ∧ a ≤ 1 then fin (Real.arcsin a) else nan
  | _ => nan

/-- `np.arccos`: NaN outside [-1,1]. -/
def arccos : XF → XF
  | fin a => if -1 ≤ a ∧ a ≤ 1 then fin (Real.arccos a) else nan
  | _ => nan

/-- `np.sqrt`: NaN for negative input. -/
def sqrt : XF → XF
  | fin a => if 0 ≤ a then fin (Real.sqrt a) else nan
  | pinf => pinf
  | _ => nan

/-- `np.nan_to_num` on finite/NaN input: NaN becomes 0.  (Infinities become the largest float, which has no
counterpart in exact arithmetic; they are left alone, and every use in the model is on finite or NaN values.) -/
def nanToNum : XF → XF
  | nan => fin 0
  | x => x

@[simp] theorem fin_add (a b : ℝ) : (fin a + fin b : XF) = fin (a + b) := rfl
@[simp] theorem fin_mul (a b : ℝ) : (fin a * fin b : XF) = fin (a * b) := rfl
@[simp] theorem fin_neg (a : ℝ) : (-fin a : XF) = fin (-a) := rfl
@[simp] theorem fin_sub (a b : ℝ) : (fin a - fin b : XF) = fin (a - b) := by
  show add (fin a) (neg (fin b)) = _
  simp [add, neg, sub_eq_add_neg]
theorem fin_div_def (a b : ℝ) : (fin a / fin b : XF) = if b = 0 then infOfSign a else fin (a / b) := rfl
theorem fin_div {b : ℝ} (a : ℝ) (h : b ≠ 0) : (fin a / fin b : XF) = fin (a / b) := by
  rw [fin_div_def, if_neg h]
@[simp] theorem nan_add (x : XF) : (nan + x : XF) = nan := by cases x <;> rfl
@[simp] theorem add_nan (x : XF) : (x + nan : XF) = nan := by cases x <;> rfl
@[simp] theorem nan_mul (x : XF) : (nan * x : XF) = nan := by cases x <;> rfl
@[simp] theorem mul_nan (x : XF) : (x * nan : XF) = nan := by cases x <;> rfl
@[simp] theorem nan_div (x : XF) : (nan / x : XF) = nan := by cases x <;> rfl
@[simp] theorem div_nan (x : XF) : (x / nan : XF) = nan := by cases x <;> rfl
@[simp] theorem neg_nan : (-nan : XF) = nan := rfl
@[simp] theorem nan_sub (x : XF) : (nan - x : XF) = nan := by
  show add nan (neg x) = nan; cases x <;> rfl
@[simp] theorem sub_nan (x : XF) : (x - nan : XF) = nan := by
  show add x (neg nan) = nan; cases x <;> rfl
@[simp] theorem fin_lt (a b : ℝ) : ((fin a : XF) < fin b) ↔ a < b := Iff.rfl
@[simp] theorem fin_le (a b : ℝ) : ((fin a : XF) ≤ fin b) ↔ a ≤ b := Iff.rfl
@[simp] theorem not_nan_lt (x : XF) : ¬ ((nan : XF) < x) := by
  intro h; cases x <;> exact h
@[simp] theorem not_lt_nan (x : XF) : ¬ (x < (nan : XF)) := by
  intro h; cases x <;> exact h
@[simp] theorem fin_lt_pinf (a : ℝ) : ((fin a : XF) < pinf) := trivial
@[simp] theorem not_pinf_lt (x : XF) : ¬ ((pinf : XF) < x) := by
  intro h; cases x <;> exact h
@[simp] theorem fin_inj (a b : ℝ) : (fin a : XF) = fin b ↔ a = b := by
  constructor
  · intro h; cases h; rfl
  · rintro rfl; rfl
@[simp] theorem isNaN_nan : isNaN nan := trivial
@[simp] theorem not_isNaN_fin (a : ℝ) : ¬ isNaN (fin a) := fun h => h
@[simp] theorem fin_ne_nan (a : ℝ) : (fin a : XF) ≠ nan := by intro h; cases h
@[simp] theorem nan_ne_fin (a : ℝ) : (nan : XF) ≠ fin a := by intro h; cases h
@[simp] theorem abs_fin (a : ℝ) : abs (fin a) = fin |a| := rfl
@[simp] theorem sin_fin (a : ℝ) : sin (fin a) = fin (Real.sin a) := rfl
@[simp] theorem cos_fin (a : ℝ) : cos (fin a) = fin (Real.cos a) := rfl
@[simp] theorem cos_nan : cos nan = nan := rfl
@[simp] theorem sin_nan : sin nan = nan := rfl
@[simp] theorem nanToNum_fin (a : ℝ) : nanToNum (fin a) = fin a := rfl
@[simp] theorem nanToNum_nan : nanToNum nan = fin 0 := rfl
theorem arcsin_of_mem {a : ℝ} (h1 : -1 ≤ a) (h2 : a ≤ 1) : arcsin (fin a) = fin (Real.arcsin a) := by
  simp [arcsin, h1, h2]
theorem arccos_of_mem {a : ℝ} (h1 : -1 ≤ a) (h2 : a ≤ 1) : arccos (fin a) = fin (Real.arccos a) := by
  simp [arccos, h1, h2]
theorem isNaN_iff (x : XF) : isNaN x ↔ x = nan := by cases x <;> simp [isNaN]

/-! ### sums -/

theorem add_comm' (a b : XF) : a + b = b + a := by
  cases a <;> cases b <;> first | rfl | (simp only [fin_add]; congr 1; ring)

theorem add_assoc' (a b c : XF) : a + b + c = a + (b + c) := by
  cases a <;> cases b <;> cases c <;> first | rfl | (simp only [fin_add]; congr 1; ring)

theorem zero_add' (a : XF) : fin 0 + a = a := by
  cases a <;> first | rfl | (simp only [fin_add]; congr 1; ring)

instance : Zero XF := ⟨fin 0⟩

instance : AddCommMonoid XF where
  add_assoc := add_assoc'
  zero := fin 0
  zero_add := zero_add'
  add_zero a := (add_comm' a (fin 0)).trans (zero_add' a)
  add_comm := add_comm'
  nsmul := nsmulRec

theorem zero_def : (0 : XF) = fin 0 := rfl

@[simp] theorem sum_fin {ι : Type} (s : Finset ι) (f : ι → ℝ) : (∑ i ∈ s, fin (f i) : XF) = fin (∑ i ∈ s, f i) := by
  induction s using Finset.induction_on with
  | empty => rfl
  | insert a s ha ih => rw [Finset.sum_insert ha, Finset.sum_insert ha, ih, fin_add]

theorem sum_nan {ι : Type} (s : Finset ι) (f : ι → XF) (i : ι) (hi : i ∈ s) (h : f i = nan) :
    (∑ i ∈ s, f i) = nan := by
  rw [← Finset.add_sum_erase s f hi, h, nan_add]

/-- `np.max([a, b])`: NaN if either is NaN. -/
def npMax : XF → XF → XF
  | nan, _ => nan
  | _, nan => nan
  | fin a, fin b => fin (Max.max a b)
  | pinf, _ => pinf
  | _, pinf => pinf
  | ninf, x => x
  | x, ninf => x

@[simp] theorem npMax_fin (a b : ℝ) : npMax (fin a) (fin b) = fin (Max.max a b) := rfl

end
end XF
end Verif
