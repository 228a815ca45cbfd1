import Verif.Model.Structure
import Verif.Model.Traj
import Verif.Model.SingleScat
import Mathlib.Analysis.SpecialFunctions.Complex.Circle

/-!
# Model of the pair correlations in /repo/structcol/structure.py:337-495

`scipy.interpolate.InterpolatedUnivariateSpline` and `scipy.special.jv` are parameters; what the theorems need of the spline is stated
there (it passes through its data).
-/

namespace Verif.Radial
noncomputable section
open Classical XF
open Verif.Structure (cc)
open Verif.Traj (linspace choiceOk)

/-- `np.arange(1, n+1, 1) * d`. /repo/structcol/structure.py:445, 449 -/
def grid (n : ℕ) (d : ℝ) (i : Fin n) : ℝ := (i.val + 1) * d

/-- `spherical_FT`. /repo/structcol/structure.py:475-482 -/
def sphericalFT {n m : ℕ} (f : Fin n → ℝ) (k : Fin m → ℝ) (r : Fin n → ℝ) (dr : ℝ) (i : Fin m) : XF :=
  fin (4 * Real.pi * ∑ j, r j * Real.sin (k i * r j) * f j * dr) / fin (k i)

/-- `inverse_spherical_FT`. /repo/structcol/structure.py:484-491 -/
def inverseSphericalFT {n m : ℕ} (ff : Fin m → XF) (k : Fin m → ℝ) (r : Fin n → ℝ) (dk : ℝ) (i : Fin n) : XF :=
  (∑ j, fin (k j * Real.sin (k j * r i)) * ff j * fin dk) / fin (r i) / fin (2 * Real.pi ^ 2)

/-- `rho` of `radial_dist_py`. /repo/structcol/structure.py:437 -/
def rho (phi : ℝ) : ℝ := 6 / Real.pi * phi

/-- `r` and `k` of `radial_dist_py`: `dk` is one over the largest radius. /repo/structcol/structure.py:444-449 -/
def dr : ℝ := 0.005
def rGrid : Fin 2048 → ℝ := grid 2048 dr
def dk : ℝ := 1 / rGrid (Fin.last 2047)
def kGrid : Fin 2048 → ℝ := grid 2048 dk

/-- `ft_c_direct`, `ft_h`, `h`. /repo/structcol/structure.py:441-461 -/
def ftC (phi : ℝ) : Fin 2048 → XF := sphericalFT (fun j => cc (rGrid j) phi) kGrid rGrid dr
def ftH (phi : ℝ) (i : Fin 2048) : XF := ftC phi i / (fin 1 - fin (rho phi) * ftC phi i)
def hArr (phi : ℝ) : Fin 2048 → XF := inverseSphericalFT (ftH phi) kGrid rGrid dk

/-- `g` before interpolation: zero for r < 1. /repo/structcol/structure.py:463-468 -/
def gArr (phi : ℝ) (i : Fin 2048) : XF := if 1 ≤ rGrid i then hArr phi i + fin 1 else fin 0

/-- an interpolator: nodes, values, position -/
abbrev Spline := (Fin 2048 → ℝ) → (Fin 2048 → XF) → ℝ → XF

/-- `radial_dist_py`. /repo/structcol/structure.py:410-473 -/
def radialDistPy (spline : Spline) (phi x : ℝ) : XF := spline rGrid (gArr phi) x

/-- the probabilities `g/np.sum(g)` of `field_phase_py` for the positions `r_d`. /repo/structcol/structure.py:397-400 -/
def probG {m : ℕ} (spline : Spline) (phi : ℝ) (r_d : Fin m → ℝ) (i : Fin m) : XF :=
  radialDistPy spline phi (r_d i) / ∑ k, radialDistPy spline phi (r_d k)

/-- `field_phase_py`, one entry of `qd`: `draw` are the indices `rng.choice` delivers, `n` of them. `1/n` with `n = 0` is a
ZeroDivisionError. /repo/structcol/structure.py:365-408 -/
def fieldPhasePy {m : ℕ} (spline : Spline) (qd phi : ℝ) (n : ℕ) (r_d : Fin m → ℝ) (draw : Fin n → Fin m) : Except PyErr ℂ :=
  if ¬ choiceOk (probG spline phi r_d) then .error .valueError
  else if n = 0 then .error .zeroDivision
  else .ok (1 / (n : ℂ) * ∑ s, Complex.exp (Complex.I * (qd : ℂ) * ((r_d (draw s) : ℝ) : ℂ)))

/-- `phase_factor`, one entry of `qd`; `j0` is the Bessel function `jv(0, ·)`. NumPy multiplies the product `bessel` by `g`.
/repo/structcol/structure.py:347-363 -/
def phaseFactor (spline : Spline) (j0 : ℝ → ℝ) (qd phi : ℝ) (n : ℕ) : XF :=
  let r_d := linspace 0 10 n
  let rho := 3 * phi / (4 * Real.pi)
  let y : ℕ → XF := fun i => fin (rho * 4 * Real.pi * r_d i ^ 2 * Real.pi * j0 (qd * r_d i)) * radialDistPy spline phi (r_d i)
  ∑ i ∈ Finset.range (n - 1), fin (r_d (i + 1) - r_d i) * (y i + y (i + 1)) / fin 2

/-- `field_phase_data` for the rows of the file: linear interpolation, the first ordinate outside the table. A file with a single row (or
none) is read as a one-dimensional array, on which `[:,0]` is an IndexError. /repo/structcol/structure.py:337-345 -/
def fieldPhaseData (qd : ℝ) (rows : List (ℝ × ℝ)) : Except PyErr ℝ :=
  match rows with
  | (x0, y0) :: row1 :: rest => .ok (Index.interp1d id y0 y0 ((x0, y0) :: row1 :: rest) qd)
  | _ => .error .indexError

end
end Verif.Radial
