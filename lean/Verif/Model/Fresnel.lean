import Verif.Model.Root
import Mathlib.Analysis.SpecialFunctions.Sqrt

/-!
# Model of the Fresnel functions of /repo/structcol/model.py (lines 1148-1238) and of
`fresnel_pass_frac` of /repo/structcol/detector.py (lines 471-555)
-/

namespace Verif.Fresnel
noncomputable section
open Classical XF Root

/-- `np.abs((a - b) / (a + b)) ** 2`, the shape of both coefficients, /repo/structcol/model.py:1206-1209.

At `a + b = 0` (which for the arguments below means equal indices and exactly grazing incidence) exact arithmetic
would give 0/0.  In float64 `np.cos(np.pi/2)` is 6.1e-17, not 0, while `np.sin(np.pi/2)` is exactly 1, so one of
`a`, `b` is exactly 0, the other a tiny positive number, and the code's value is exactly 1.  The model returns
that value. -/
def ratioSq (a b : ℝ) : ℝ := if a + b = 0 then 1 else |(a - b) / (a + b)| ^ 2

/-- The mask `tir_vals` (empty unless `ms < 1`). /repo/structcol/model.py:1186-1196 -/
def tirMask (n1 n2 θ : ℝ) : Prop := n2 / n1 < 1 ∧ Real.arcsin (n2 / n1) ≤ θ

/-- `root`. /repo/structcol/model.py:1203 -/
def root (n1 n2 θ : ℝ) : ℝ := Real.sqrt |n2 ^ 2 - (n1 * Real.sin θ) ^ 2|

/-- `r_par` for one angle not above π/2. /repo/structcol/model.py:1184-1207.
Simplification: real positive indices (callers in detector.py pass `np.abs` of complex ones). -/
def rPar (n1 n2 θ : ℝ) : ℝ :=
  if tirMask n1 n2 θ then 1 else ratioSq (n1 * root n1 n2 θ) (n2 ^ 2 * Real.cos θ)

/-- `r_perp` for one angle not above π/2. /repo/structcol/model.py:1184-1209 -/
def rPerp (n1 n2 θ : ℝ) : ℝ :=
  if tirMask n1 n2 θ then 1 else ratioSq (n1 * Real.cos θ) (root n1 n2 θ)

/-- Apply a real function to the finite entries; NaN stays NaN (all comparisons with NaN are false and the arithmetic
propagates it); −inf gives NaN (`sin(-inf)`).  `+inf` never gets here: it fails the range check. -/
def onFin (f : ℝ → ℝ) : XF → XF
  | fin a => fin (f a)
  | _ => nan

/-- `fresnel_reflection(n1, n2, incident_angle)` on an array; returns `(r_par, r_perp)`.
/repo/structcol/model.py:1148-1211 -/
def fresnelReflection {n : ℕ} (n1 n2 : ℝ) (theta : Fin n → XF) :
    Except PyErr ((Fin n → XF) × (Fin n → XF)) :=
  if ∃ i, (fin (Real.pi / 2) : XF) < theta i then .error .valueError
  else .ok (fun i => onFin (rPar n1 n2) (theta i), fun i => onFin (rPerp n1 n2) (theta i))

/-- `fresnel_transmission`. /repo/structcol/model.py:1213-1238 -/
def fresnelTransmission {n : ℕ} (n1 n2 : ℝ) (theta : Fin n → XF) :
    Except PyErr ((Fin n → XF) × (Fin n → XF)) := do
  let (rp, rs) ← fresnelReflection n1 n2 theta
  return (fun i => fin 1 - rp i, fun i => fin 1 - rs i)

/-- `EPS`. /repo/structcol/detector.py:47 -/
def EPS : ℝ := 1 / 10 ^ 9

/-- `theta_inside[np.isnan(theta_inside)] = np.pi / 2`. /repo/structcol/detector.py:534 -/
def nanToHalfPi : XF → XF
  | nan => fin (Real.pi / 2)
  | x => x

/-- `fresnel_pass_frac` after `get_angles` (which supplies `theta_before`), on an array.
/repo/structcol/detector.py:518-555.  `n_inside = None` means a single interface. -/
def fresnelPassFrac {n : ℕ} (theta_before : Fin n → XF) (n_before : ℝ) (n_inside? : Option ℝ) (n_after : ℝ) :
    Except PyErr (Fin n → XF) := do
  let n_inside := n_inside?.getD n_before
  let theta_inside := fun i => nanToHalfPi (refraction theta_before (fin n_before) (fin n_inside) i)
  let (trans_s1, trans_p1) ← fresnelTransmission n_before n_inside theta_before
  let (trans_s2, trans_p2) ← fresnelTransmission n_inside n_after theta_inside
  let fresnel_trans := fun i => (trans_s1 i + trans_p1 i) * (trans_s2 i + trans_p2 i) / fin 4
  let (refl_s1, refl_p1) ← fresnelReflection n_inside n_after theta_inside
  let (refl_s2, refl_p2) ← fresnelReflection n_inside n_before theta_inside
  let fresnel_refl := fun i => (refl_s1 i + refl_p1 i) * (refl_s2 i + refl_p2 i) / fin 4
  return fun i => fresnel_trans i / (fin 1 - fresnel_refl i + fin EPS)

/-! ### The same computation for one finite angle, in real arithmetic

`passFrac` is what `fresnelPassFrac` computes at a finite angle in [0, π/2]
(`fresnelPassFrac_fin`, Verif/Lemmas/Fresnel.lean); the models of the functions that call
`fresnel_pass_frac` use it. -/

/-- `theta_inside`. /repo/structcol/detector.py:529-534 -/
def thetaInside (n_before n_inside θ : ℝ) : ℝ :=
  if 1 < |n_before / n_inside * Real.sin θ| then Real.pi / 2
  else Real.arcsin (n_before / n_inside * Real.sin θ)

/-- mean of the two polarisations' reflectances -/
def rMean (n1 n2 θ : ℝ) : ℝ := (rPar n1 n2 θ + rPerp n1 n2 θ) / 2

/-- `fresnel_pass_frac` for one finite angle. /repo/structcol/detector.py:518-555 -/
def passFrac (n_before : ℝ) (n_inside? : Option ℝ) (n_after θ : ℝ) : ℝ :=
  let n_inside := n_inside?.getD n_before
  let ti := thetaInside n_before n_inside θ
  let trans := ((1 - rPar n_before n_inside θ) + (1 - rPerp n_before n_inside θ)) *
    ((1 - rPar n_inside n_after ti) + (1 - rPerp n_inside n_after ti)) / 4
  let refl := (rPar n_inside n_after ti + rPerp n_inside n_after ti) *
    (rPar n_inside n_before ti + rPerp n_inside n_before ti) / 4
  trans / (1 - refl + EPS)

end
end Verif.Fresnel
