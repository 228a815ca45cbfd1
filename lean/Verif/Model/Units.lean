import Verif.Model.Spheres
import Verif.Model.Reflection

/-!
# Lengths with units

Elsewhere in the model a length is a number of one fixed unit.  Here a length carries its unit, as a pint `Quantity` does, for the
functions of /repo/structcol that take the bare number (`.magnitude`) of a quantity in whatever unit it has.
-/

namespace Verif.Units
noncomputable section
open Classical XF Verif.Spheres

/-- A length: the number, and the size of the unit (in metres, say).  `sc.Quantity`. /repo/structcol/__init__.py:40-50 -/
structure Len where
  mag : ℝ
  unit : ℝ

/-- the length itself, in the fixed unit.  Models no code. -/
def Len.value (q : Len) : ℝ := q.mag * q.unit

/-- `q.to(unit)`. pint -/
def Len.to (q : Len) (u : ℝ) : Len := ⟨q.mag * q.unit / u, u⟩

variable {nt : ℕ}

/-- `calc_diam_list` with `equal_spacing=False`: the diameters are tried from 1 on, in the unit of the mean; the density is used only in
comparisons with its own maximum, and its magnitude is that of the dimensionless formula for the magnitudes.
/repo/structcol/phase_func_sphere.py:736-836 -/
def calcDiamListQ (num_diam : ℕ) (diameter_mean : Len) (pdi : ℝ) : Except PyErr (List Len) :=
  (calcDiamList num_diam diameter_mean.mag pdi 600).map fun l => l.map fun d => ⟨d, diameter_mean.unit⟩

/-- `calc_diam_list` with `equal_spacing=True`. /repo/structcol/phase_func_sphere.py:774-781 -/
def equalDiamListQ (num_diam : ℕ) (diameter_mean : Len) : List Len :=
  (equalDiamList num_diam diameter_mean.mag).map fun d => ⟨d, diameter_mean.unit⟩

/-- `size_distribution` on quantities: the magnitude of the result, in the unit that pint gives it (a product of powers of both units).
Differences and quotients of quantities of different units are converted. /repo/structcol/phase_func_sphere.py:704-734 -/
def sizeDistributionQ (d mean : Len) (t : ℝ) : ℝ :=
  if t ≤ 100 then
    ((t + 1) / mean.mag) ^ (t + 1) * d.mag ^ t / Real.Gamma (t + 1) * Real.exp (-d.value / mean.value * (t + 1))
  else
    let std_dev := d.mag / Real.sqrt (t + 1)
    Real.exp (-(d.mag - (mean.to d.unit).mag) ^ 2 / (2 * std_dev ^ 2)) / Real.sqrt (2 * Real.pi * std_dev ^ 2)

/-- `sample_diams`: bare numbers in the unit of `diam_list` are returned. /repo/structcol/phase_func_sphere.py:838-883 -/
def sampleDiamsQ {n : ℕ} (pdi : ℝ) (diam_list : Fin n → ℝ) (unit : ℝ) (mean : Len) (draw : ℕ → Fin nt → Fin n) :
    Except PyErr (ℕ → Fin nt → ℝ) :=
  if pdi = 0 then .error .zeroDivision
  else
    let pdf := fun i => sizeDistributionQ ⟨diam_list i, unit⟩ mean (widthOf pdi)
    if Traj.choiceOk (fun i => fin (pdf i) / fin (∑ k, pdf k)) then .ok fun ev tr => diam_list (draw ev tr) else .error .valueError

end
end Verif.Units
