import Verif.Model.SingleScat

/-!
# Model of `absorption_cross_section`

The Mie cross sections of pymie are parameters: `fu r r'` is the absorption cross section `_cross_sections_complex_medium_fu` gives
when it is told that the radius is `r` (also used for the size parameter in the medium) and that the size parameter in the particle is
that of the radius `r'`; `layered r` is the one `_cross_sections_complex_medium_sudiarta` gives for a multilayer particle.
-/

namespace Verif.Absorption
noncomputable section
open Classical XF Verif.SingleScat
open Verif.Structure (Species)
open Verif.Traj (linspace)

/-- the lower end of the range of diameters: here a negative one is replaced by 0. /repo/structcol/model.py:998-1001 -/
def lowest (d pdi : ℝ) : ℝ :=
  let m := d - 3 * d / Real.sqrt (polyWidth pdi + 1)
  if m < 0 then 0 else m

/-- the 50 diameters of one species. /repo/structcol/model.py:986-1013 -/
def range (s : Species) (i : ℕ) : ℝ := linspace (lowest s.d s.pdi) (maxDiameter s.d s.pdi) 50 i

/-- the weights of these diameters. /repo/structcol/model.py:1014-1016 -/
def weight (s : Species) (i : ℕ) : ℝ :=
  rawDistribution s.d (polyWidth s.pdi) (range s i) / trapz 50 (fun j => rawDistribution s.d (polyWidth s.pdi) (range s j)) (range s)

/-- the contribution of one species: the size parameter in the particle is that of the mean diameter, outside the loop over the
diameters. /repo/structcol/model.py:1005-1047 -/
def ofSpecies (fu : ℝ → ℝ → ℝ) (s : Species) : ℝ :=
  trapz 50 (fun i => fu (range s i / 2) (s.d / 2) * weight s i) (range s) * s.c

/-- `absorption_cross_section`.  `layers` is the number of entries of `m`, `species` the diameters with their concentrations and
polydispersity indices (simplification: all three arrays have the same length), the two flags say whether the latter two are given.
An unknown `form_type` leaves `cabs_total` at the 0 of the first line if the matrix does not absorb, and unbound otherwise.
/repo/structcol/model.py:935-1079 -/
def absorptionCrossSection (fu : ℝ → ℝ → ℝ) (layered : ℝ → ℝ) (form_type : Option String) (layers : ℕ) (n_matrix_imag : ℝ)
    (species : List Species) (hasConcentration hasPdi : Bool) : Except PyErr ℝ :=
  if form_type = some "polydisperse" then
    if !hasConcentration || !hasPdi then .error .valueError
    else if 1 < layers then .error .valueError
    else if species = [] then .error .unboundLocalError
    else .ok (species.map (ofSpecies fu)).sum
  else if form_type = none then .ok 0
  else if form_type = some "sphere" then
    match species with
    | [] => .error .indexError
    | s :: _ =>
      if 1 < layers then .ok (if layered (s.d / 2) < 0 then 0 else layered (s.d / 2))
      else .ok (fu (s.d / 2) (s.d / 2))
  else if |n_matrix_imag| = 0 then .ok 0
  else .error .unboundLocalError

end
end Verif.Absorption
