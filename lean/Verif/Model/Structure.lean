import Verif.Model.Index
import Mathlib.Analysis.SpecialFunctions.Trigonometric.Basic
import Mathlib.Analysis.SpecialFunctions.Pow.Real

/-!
# Model of /repo/structcol/structure.py

Real inputs; each division is the IEEE one (`XF`) where a zero denominator is reachable.
-/

namespace Verif.Structure

noncomputable section
open Classical XF Real

/-- `lambda1`, `lambda2` of `factor_py`. /repo/structcol/structure.py:78-79 -/
def lambda1 (phi : ℝ) : XF := fin ((1 + 2 * phi) ^ 2) / fin ((1 - phi) ^ 4)
def lambda2 (phi : ℝ) : XF := fin (-(1 + phi / 2) ^ 2) / fin ((1 - phi) ^ 4)

/-- the Fourier transform of the direct correlation function, `c`. /repo/structcol/structure.py:80-88 -/
def cHat (qd phi : ℝ) : XF :=
  fin (-24 * phi) * (lambda1 phi * fin (sin qd - qd * cos qd) / fin (qd ^ 3)
    - fin (6 * phi) * lambda2 phi * fin (qd ^ 2 * cos qd - 2 * qd * sin qd - 2 * cos qd + 2) / fin (qd ^ 4)
    - (fin phi * lambda1 phi / fin 2) * fin (qd ^ 4 * cos qd - 4 * qd ^ 3 * sin qd - 12 * qd ^ 2 * cos qd + 24 * qd * sin qd
        + 24 * cos qd - 24) / fin (qd ^ 6))

/-- `factor_py`. /repo/structcol/structure.py:37-90 -/
def factorPy (qd phi : ℝ) : XF := fin 1 / (fin 1 - cHat qd phi)

/-- `r` of `factor_para`; `phi**(-1/3)` for positive `phi`. /repo/structcol/structure.py:136 -/
def paraR (qd phi sigma : ℝ) : ℝ := Real.exp (-(qd * phi ^ (-1 / 3 : ℝ) * sigma) ^ 2 / 2)

/-- `factor_para`. /repo/structcol/structure.py:93-137 -/
def factorPara (qd phi sigma : ℝ) : XF :=
  fin (1 - paraR qd phi sigma ^ 2) /
    fin (1 + paraR qd phi sigma ^ 2 - 2 * paraR qd phi sigma * cos (qd * phi ^ (-1 / 3 : ℝ)))

/-- `factor_data`: linear interpolation of the table, with the first ordinate as fill value on both sides; an empty table is an
IndexError (`s_data[0]`). /repo/structcol/structure.py:313-335.  `interp1d` needs arrays of equal length (ValueError otherwise). -/
def factorData (qd : ℝ) (s_data qd_data : List ℝ) : Except PyErr ℝ :=
  match s_data with
  | [] => .error .indexError
  | s0 :: _ =>
    if s_data.length ≠ qd_data.length then .error .valueError
    else .ok (Index.interp1d id s0 s0 (qd_data.zip s_data) qd)

/-- `c0`, `c1`, `c3`, `cc`: the direct correlation function used by `radial_dist_py`. /repo/structcol/structure.py:498-508 -/
def c0 (eta : ℝ) : ℝ := -(1 + 2 * eta) ^ 2 / (1 - eta) ^ 4
def c1 (eta : ℝ) : ℝ := 6 * eta * (1 + eta * 0.5) ^ 2 / (1 - eta) ^ 4
def c3 (eta : ℝ) : ℝ := eta * 0.5 * c0 eta
def cc (r eta : ℝ) : ℝ := if r > 1 then 0 else c0 eta + c1 eta * r + c3 eta * r ^ 3

/-! ## Polydisperse structure factor

`n` species (one or two), arrays indexed by species.  Complex arithmetic is exact; a zero denominator (NumPy: inf or NaN) gives 0
here, so the theorems exclude `q = 0` and vanishing diameters. -/

/-- the clamp on the polydispersity index. /repo/structcol/structure.py:196-197 -/
def clampPdi (pdi : ℝ) : ℝ := if pdi < 1e-5 then 1e-5 else pdi

/-- `t` and the moments. /repo/structcol/structure.py:187-208; `tm(0,t) = 1`, and `tm(1,t) = (1+t)/(t+1)` -/
def polyT (pdi : ℝ) : ℝ := 1 / clampPdi pdi ^ 2 - 1
def polyT0 (_pdi : ℝ) : ℝ := 1
def polyT1 (pdi : ℝ) : ℝ := (1 + polyT pdi) / (polyT pdi + 1) ^ 1
def polyT2 (pdi : ℝ) : ℝ := clampPdi pdi ^ 2 + 1
def polyT3 (pdi : ℝ) : ℝ := (clampPdi pdi ^ 2 + 1) * (2 * clampPdi pdi ^ 2 + 1)

/-- `fm`. /repo/structcol/structure.py:176-185 -/
def fm (x : ℂ) (t tm : ℝ) (m : ℝ) : ℂ := tm * (1 + x / (t + 1)) ^ (-((t : ℂ) + 1 + m))

/-- a species: concentration, mean diameter, polydispersity index -/
structure Species where
  c : ℝ
  d : ℝ
  pdi : ℝ

/-- the number density of one species at volume fraction `phi` -/
def rhoOf (phi : ℝ) (s : Species) : ℝ := 6 * phi / (polyT3 s.pdi * π * s.d ^ 3)

/-- the volume fractions of the two species. /repo/structcol/structure.py:227-230 -/
def phiSplit (phi : ℝ) (s0 s1 : Species) : ℝ × ℝ :=
  let phi_ratio := 1 / (s0.c / s1.c * (s0.d / s1.d) ^ 3 * polyT3 s0.pdi / polyT3 s1.pdi + 1)
  (phi - phi_ratio * phi, phi_ratio * phi)

/-- `rho`.  One species, or two of which one is absent: that of the species present; otherwise the sum.  With both concentrations
zero `ind0` is empty and broadcasting fails downstream: here 0. /repo/structcol/structure.py:217-234 -/
def polyRho (phi : ℝ) : List Species → ℝ
  | [s] => rhoOf phi s
  | [s0, s1] =>
    if s0.c = 0 ∨ s1.c = 0 then
      if s0.c ≠ 0 then rhoOf phi s0 else if s1.c ≠ 0 then rhoOf phi s1 else 0
    else rhoOf (phiSplit phi s0 s1).1 s0 + rhoOf (phiSplit phi s0 s1).2 s1
  | _ => 0

/-- `np.sum(c * ..., axis=0)` -/
def spSum (l : List Species) (f : Species → ℂ) : ℂ := (l.map f).sum

/-- `SM` before the clipping. /repo/structcol/structure.py:200-307 -/
def polyRaw (q phi : ℝ) (l : List Species) : ℝ :=
  let Delta : ℂ := 1 - phi
  let rho : ℂ := polyRho phi l
  let sigma0 : ℂ := ((6 * phi / (π * polyRho phi l)) ^ (1 / 3 : ℝ) : ℝ)
  let s : ℂ := Complex.I * q
  let x : Species → ℂ := fun p => s * p.d
  let F0 := rho
  let zeta2 := rho * sigma0 ^ 2
  let f0 := fun p : Species => fm (x p) (polyT p.pdi) (polyT0 p.pdi) 0
  let f1 := fun p : Species => fm (x p) (polyT p.pdi) (polyT1 p.pdi) 1
  let f2 := fun p : Species => fm (x p) (polyT p.pdi) (polyT2 p.pdi) 2
  let f0_inv := fun p : Species => fm (-x p) (polyT p.pdi) (polyT0 p.pdi) 0
  let f1_inv := fun p : Species => fm (-x p) (polyT p.pdi) (polyT1 p.pdi) 1
  let f2_inv := fun p : Species => fm (-x p) (polyT p.pdi) (polyT2 p.pdi) 2
  let t2 := fun p : Species => (polyT2 p.pdi : ℂ)
  let fa := fun p => 1 / x p ^ 3 * (1 - x p / 2 - f0 p - x p / 2 * f1 p)
  let fb := fun p => 1 / x p ^ 3 * (1 - x p / 2 * t2 p - f1 p - x p / 2 * f2 p)
  let fc := fun p => 1 / x p ^ 2 * (1 - x p - f0 p)
  let fd := fun p => 1 / x p ^ 2 * (1 - x p * t2 p - f1 p)
  let Ialpha1 := 24 / s ^ 3 * spSum l fun p => p.c * F0 * (-1 / 2 * (1 - f0 p) + x p / 4 * (1 + f1 p))
  let Ialpha2 := 24 / s ^ 3 * spSum l fun p => p.c * F0 * (-p.d / 2 * (1 - f1 p) + s * p.d ^ 2 / 4 * (t2 p + f2 p))
  let Iw1 := 2 * π * rho / (Delta * s ^ 3) * (Ialpha1 + s / 2 * Ialpha2)
  let Iw2 := π * rho / (Delta * s ^ 2) * (1 + π * zeta2 / (Delta * s)) * Ialpha1 +
    π ^ 2 * zeta2 * rho / (2 * Delta ^ 2 * s ^ 2) * Ialpha2
  let F11 := spSum l fun p => p.c * 2 * π * rho * p.d ^ 3 / Delta * fa p
  let F12 := spSum l fun p => p.c / p.d * ((π / Delta) ^ 2 * rho * zeta2 * p.d ^ 4 * fa p + π * rho * p.d ^ 3 / Delta * fc p)
  let F21 := spSum l fun p => p.c * p.d * 2 * π * rho * p.d ^ 3 / Delta * fb p
  let F22 := spSum l fun p => p.c * ((π / Delta) ^ 2 * rho * zeta2 * p.d ^ 4 * fb p + π * rho * p.d ^ 3 / Delta * fd p)
  let FF11 := 1 - F11
  let FF12 := -F12
  let FF21 := -F21
  let FF22 := 1 - F22
  let G11 := FF22 / (FF11 * FF22 - FF12 * FF21)
  let G12 := -FF12 / (FF11 * FF22 - FF12 * FF21)
  let G21 := -FF21 / (FF11 * FF22 - FF12 * FF21)
  let G22 := FF11 / (FF11 * FF22 - FF12 * FF21)
  let I0 := -9 / 2 * (2 / s) ^ 6 * spSum l fun p => p.c * F0 ^ 2 * (1 - 1 / 2 * (f0_inv p + f0 p) + x p / 2 * (f1_inv p - f1 p) -
    (s ^ 2 * p.d ^ 2) / 8 * (f2_inv p + f2 p + 2 * t2 p))
  let h2 := (Iw1 * G11 * Ialpha1 / I0 + Iw1 * G12 * Ialpha2 / I0 + Iw2 * G21 * Ialpha1 / I0 + Iw2 * G22 * Ialpha2 / I0).re
  1 - 2 * h2

/-- `factor_poly`. /repo/structcol/structure.py:140-311 -/
def factorPoly (q phi : ℝ) (l : List Species) : ℝ :=
  if polyRaw q phi l < 0 then 0 else polyRaw q phi l

end
end Verif.Structure
