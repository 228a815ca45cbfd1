import Verif.Spec
import Mathlib.Analysis.SpecialFunctions.Trigonometric.Arctan

/-!
# A square detector

What the documentation of the goniometer says about it: a square of a given side, whose centre is at a given distance from the
sample and whose direction from the sample makes a given angle with the normal of the sample (the -z axis), in the x-z plane.
Nothing here is taken from /repo's code.
-/

namespace Verif.Spec
noncomputable section

/-- unit vector from the sample to the centre of a detector at angle `θ` from the normal of the sample, the -z axis -/
def towards (θ : ℝ) : V3 := ⟨Real.sin θ, 0, -Real.cos θ⟩

/-- The ray from the origin along `k` meets the square of side `L` that faces the origin, has its centre at distance `D` along
`towards θ`, and two sides parallel to y: it reaches the point `D towards θ + u e + v ŷ` with `|u|, |v| < L/2`, where `e` is
the unit vector in the square perpendicular to y. -/
def MeetsSquare (θ L D : ℝ) (k : V3) : Prop :=
  ∃ t u v : ℝ, 0 < t ∧ |u| < L / 2 ∧ |v| < L / 2 ∧
    V3.smul t k = V3.add (V3.smul D (towards θ)) (V3.add (V3.smul u ⟨Real.cos θ, 0, Real.sin θ⟩) (V3.smul v ⟨0, 1, 0⟩))

/-- half the angle under which the side of the square is seen from the sample -/
def halfWidth (L D : ℝ) : ℝ := Real.arctan (L / 2 / D)

end
end Verif.Spec
