import Verif.Model.Fresnel
import Mathlib.Analysis.SpecialFunctions.Complex.Log
import Mathlib.Analysis.SpecialFunctions.Pow.Complex

/-!
# Model of `fresnel_reflection` with complex refractive indices (/repo/structcol/model.py:1148-1238)

`reflection` hands a complex index of the sample to these functions when the particles or the matrix absorb
(/repo/structcol/model.py:274-275 and 320); detector.py takes `np.abs` first and stays with real indices
(Verif/Model/Fresnel.lean).

Simplifications: exact complex arithmetic; finite angles; the indices are numpy complex scalars (a bare Python
`complex` has no `<` and would raise TypeError at line 1188); `np.arcsin` of a complex number is its principal
value.
-/

namespace Verif.Fresnel
noncomputable section
open Classical XF

/-- numpy's `<` on complex numbers is lexicographic. Used at /repo/structcol/model.py:1188 -/
def cxLt (z w : ℂ) : Prop := z.re < w.re ∨ (z.re = w.re ∧ z.im < w.im)

/-- numpy's `<=` (and, swapped, `>=`) on complex numbers is lexicographic. Used at /repo/structcol/model.py:1191 -/
def cxLe (z w : ℂ) : Prop := z.re < w.re ∨ (z.re = w.re ∧ z.im ≤ w.im)

/-- `np.arcsin` on complex numbers (principal value `-i log(iz + sqrt(1 - z^2))`).
Used at /repo/structcol/model.py:1191 -/
def cxArcsin (z : ℂ) : ℂ := -Complex.I * Complex.log (Complex.I * z + (1 - z ^ 2) ^ (1 / 2 : ℂ))

/-- `tir_vals` for complex indices. /repo/structcol/model.py:1186-1196 -/
def tirMaskC (n1 n2 : ℂ) (θ : ℝ) : Prop := cxLt (n2 / n1) 1 ∧ cxLe (cxArcsin (n2 / n1)) θ

/-- `root`: the absolute value is taken inside the square root, so it is a real number even for complex indices.
/repo/structcol/model.py:1203 -/
def rootC (n1 n2 : ℂ) (θ : ℝ) : ℝ := Real.sqrt ‖n2 ^ 2 - (n1 * Real.sin θ) ^ 2‖

/-- `np.abs((a - b) / (a + b)) ** 2`. /repo/structcol/model.py:1206-1209.
A zero denominator: 0/0 as in `ratioSq` (grazing incidence, value 1 in float64); a nonzero number over 0 has
modulus inf. -/
def ratioSqC (a b : ℂ) : XF :=
  if a + b = 0 then (if a = 0 then fin 1 else pinf) else fin (‖(a - b) / (a + b)‖ ^ 2)

/-- `r_par` for one angle. /repo/structcol/model.py:1184-1207 -/
def rParC (n1 n2 : ℂ) (θ : ℝ) : XF :=
  if tirMaskC n1 n2 θ then fin 1 else ratioSqC (n1 * rootC n1 n2 θ) (n2 ^ 2 * Real.cos θ)

/-- `r_perp` for one angle. /repo/structcol/model.py:1184-1209 -/
def rPerpC (n1 n2 : ℂ) (θ : ℝ) : XF :=
  if tirMaskC n1 n2 θ then fin 1 else ratioSqC (n1 * Real.cos θ) (rootC n1 n2 θ)

/-- `fresnel_reflection(n1, n2, incident_angle)` with complex indices; returns `(r_par, r_perp)`.
/repo/structcol/model.py:1148-1211 -/
def fresnelReflectionC {n : ℕ} (n1 n2 : ℂ) (theta : Fin n → ℝ) : Except PyErr ((Fin n → XF) × (Fin n → XF)) :=
  if ∃ i, Real.pi / 2 < theta i then .error .valueError
  else .ok (fun i => rParC n1 n2 (theta i), fun i => rPerpC n1 n2 (theta i))

/-- `fresnel_transmission` with complex indices. /repo/structcol/model.py:1213-1238 -/
def fresnelTransmissionC {n : ℕ} (n1 n2 : ℂ) (theta : Fin n → ℝ) :
    Except PyErr ((Fin n → XF) × (Fin n → XF)) := do
  let (rp, rs) ← fresnelReflectionC n1 n2 theta
  return (fun i => fin 1 - rp i, fun i => fin 1 - rs i)

end
end Verif.Fresnel
