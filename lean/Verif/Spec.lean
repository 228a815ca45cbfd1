import Mathlib.Data.Real.Basic
import Mathlib.Algebra.Order.Round
import Mathlib.Analysis.SpecialFunctions.Trigonometric.Inverse

/-!
# Specification vocabulary

Small, model-independent notions used in the statements of the property theorems.
Nothing here is taken from /repo.
-/

namespace Verif.Spec

/-- A vector in 3-space. -/
@[ext] structure V3 where
  x : ℝ
  y : ℝ
  z : ℝ

namespace V3
def dot (a b : V3) : ℝ := a.x * b.x + a.y * b.y + a.z * b.z
def smul (c : ℝ) (a : V3) : V3 := ⟨c * a.x, c * a.y, c * a.z⟩
def add (a b : V3) : V3 := ⟨a.x + b.x, a.y + b.y, a.z + b.z⟩
def sub (a b : V3) : V3 := ⟨a.x - b.x, a.y - b.y, a.z - b.z⟩
def cross (a b : V3) : V3 :=
  ⟨a.y * b.z - a.z * b.y, a.z * b.x - a.x * b.z, a.x * b.y - a.y * b.x⟩
def zero : V3 := ⟨0, 0, 0⟩
/-- squared Euclidean length -/
def normSq (a : V3) : ℝ := dot a a
/-- Euclidean length -/
noncomputable def norm (a : V3) : ℝ := Real.sqrt (normSq a)
end V3

/-- `m` is the first index (counting from 1) at which `P` holds among `1, …, n`. -/
def IsFirst (n : ℕ) (P : ℕ → Prop) (m : ℕ) : Prop :=
  1 ≤ m ∧ m ≤ n ∧ P m ∧ ∀ k, 1 ≤ k → k < m → ¬ P k

/-- Snell's law: a ray at angle `θ₁` in a medium of index `n₁` continues at angle `θ₂` in a medium of index `n₂`. -/
def Snell (n₁ n₂ θ₁ θ₂ : ℝ) : Prop := n₁ * Real.sin θ₁ = n₂ * Real.sin θ₂

/-- Vector form of refraction at a surface with unit normal `n` pointing to the far side: the unit direction `k₂` continues
`k₁` across the surface from index `n₁` to index `n₂`.  The cross products say that `k₂` is in the plane of incidence, on
the same side of the normal, and that `n₁ sin θ₁ = n₂ sin θ₂`. -/
def RefractedAt (n₁ n₂ : ℝ) (n k₁ k₂ : V3) : Prop :=
  V3.normSq k₂ = 1 ∧ 0 ≤ V3.dot k₂ n ∧ V3.smul n₂ (V3.cross n k₂) = V3.smul n₁ (V3.cross n k₁)

/-- Angles measured from a surface normal on one side of it. -/
def IsRefractionAngle (θ : ℝ) : Prop := -(Real.pi / 2) ≤ θ ∧ θ ≤ Real.pi / 2

/-- A number between 0 and 1. -/
def IsFraction (x : ℝ) : Prop := 0 ≤ x ∧ x ≤ 1

/-- event number `m` (counted from 1) of trajectory `j` is flagged in a table over events and trajectories -/
def flagged {nev nt : ℕ} (table : Fin nev → Fin nt → Bool) (j : Fin nt) (m : ℕ) : Prop :=
  ∃ e : Fin nev, e.val + 1 = m ∧ table e j = true

/-- `b` is the first integer level met when moving from height `u0` to height `u1`.  Being exactly at a level counts as
being just above it. -/
def FirstCrossed (u0 u1 : ℝ) (b : ℤ) : Prop :=
  (u0 < b ∧ (b : ℝ) ≤ u1 ∧ ∀ c : ℤ, u0 < c → b ≤ c) ∨
  (u1 < b ∧ (b : ℝ) ≤ u0 ∧ ∀ c : ℤ, (c : ℝ) ≤ u0 → c ≤ b)

/-- Folding an unfolded height (in units of the film thickness) back into the film `[0,1]`: the triangle wave. -/
noncomputable def fold (u : ℝ) : ℝ := |u - 2 * (round (u / 2) : ℤ)|

end Verif.Spec
