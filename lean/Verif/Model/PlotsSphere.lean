import Verif.Model.Bulk
import Mathlib.Analysis.SpecialFunctions.Complex.Arg

/-!
# What the plots of phase functions and exit points draw

`structcol/phase_func_sphere.py`: `plot_phase_func`, `plot_dist_1d`, `plot_exit_points`.  A plot is modelled by the numbers handed to
matplotlib (and to `np.save`); styles, labels and limits are not modelled, nor are the density estimates that seaborn draws from the
raw data.
-/

namespace Verif.PlotsSphere
noncomputable section
open Classical XF

/-- `np.diff(a)[0]`: IndexError for arrays with fewer than two entries. /repo/structcol/phase_func_sphere.py:312, 328, 374 -/
def firstDiff {n : ℕ} (a : Fin n → ℝ) : Except PyErr ℝ :=
  if h : 2 ≤ n then .ok (a ⟨1, by omega⟩ - a ⟨0, by omega⟩) else .error .indexError

/-- `theta = np.arccos(2 * nu - 1)`; NaN outside [0, 1]. /repo/structcol/phase_func_sphere.py:308 -/
def thetaOf (nu : ℝ) : XF := XF.arccos (fin (2 * nu - 1))

/-- `plot_phase_func(pdf, nu)` without azimuths: the polar curve (angle, radius); the second curve drawn has the opposite angles.  The
radii are what `save=True` stores. /repo/structcol/phase_func_sphere.py:308-320, 340-342 -/
def plotPhaseFunc1 {n : ℕ} (pdf : ℝ → ℝ) (nu : Fin n → ℝ) : Except PyErr (Fin n → XF × XF) := do
  let d ← firstDiff nu
  return fun i => (thetaOf (nu i), fin (pdf (nu i)) / ∑ k, fin (pdf (nu k)) * fin d)

/-- `plot_phase_func(pdf, nu, phi)`: the pixels of the heat map, rows are azimuths and columns polar angles; they are what `save=True`
stores.  The density is evaluated at `(cos(arccos(2 nu - 1)) + 1)/2`.  Simplification: values of nu are in [0, 1] (otherwise theta is
NaN), as the density estimate is undefined at NaN. /repo/structcol/phase_func_sphere.py:308, 321-328, 340-342 -/
def plotPhaseFunc2 {n m : ℕ} (pdf : ℝ → ℝ → ℝ) (nu : Fin n → ℝ) (phi : Fin m → ℝ) : Except PyErr (Fin m → Fin n → XF) := do
  let dphi ← firstDiff phi
  let dtheta ← firstDiff fun i => Real.arccos (2 * nu i - 1)
  let vals : Fin m → Fin n → ℝ := fun a b => pdf ((Real.cos (Real.arccos (2 * nu b - 1)) + 1) / 2) (phi a)
  return fun a b => fin (vals a b) / ∑ a', ∑ b', fin (vals a' b') * fin dphi * fin dtheta

/-- `plot_dist_1d`: the curve drawn over `var_range`. /repo/structcol/phase_func_sphere.py:373-378 -/
def plotDist1d {n : ℕ} (var_range pdf_var_vals : Fin n → ℝ) : Except PyErr (Fin n → XF) := do
  let d ← firstDiff var_range
  return fun i => fin (pdf_var_vals i) / ∑ k, fin (pdf_var_vals k) * fin d

/-- `plot_exit_points(..., plot_dimension='2d')`: the point drawn for one exit, `(theta, phi)`.  `np.arctan2(y, x)` is the argument of
`x + i y` (both are 0 at the origin and pi on the negative real axis). /repo/structcol/phase_func_sphere.py:455-460 -/
def exitPoint2d (x y z radius : ℝ) : XF × XF :=
  (XF.arccos (fin z / fin radius), fin (Complex.arg ⟨x, y⟩ + Real.pi))

/-- the curve that `calc_pdf(..., plot=True)` hands to `plot_dist_1d` when the density does not depend on the azimuth; if no trajectory
leaves the sphere, `pdf` has never been assigned. /repo/structcol/phase_func_sphere.py:219-239 -/
def calcPdfPlot {nt n : ℕ} (kde : List ℝ × List ℝ → ℝ → ℝ) (kz : Option (ℕ → Fin nt → ℝ)) (z : Fin nt → ℝ) (radius : ℝ)
    (refl trans : Fin nt → ℝ) (ri ti : Fin nt → ℕ) (nu_range : Fin n → ℝ) : Except PyErr (Fin n → XF) := do
  let data ← match kz with
    | some k => Spheres.pdfDataKz k refl trans ri ti
    | none => Spheres.pdfDataZ z radius refl trans ri ti
  match data with
  | none => .error .unboundLocalError
  | some d => plotDist1d nu_range fun i => kde d (nu_range i)

end
end Verif.PlotsSphere
