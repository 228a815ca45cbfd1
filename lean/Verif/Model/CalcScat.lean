import Verif.Model.Init
import Verif.Model.SingleScat
import Mathlib.Data.Complex.Basic

/-!
# Model of `calc_scat` and `phase_function`, complete, in /repo/structcol/montecarlo.py

Indices are complex; a core-shell particle has one radius and one index per layer, from the core outwards.  `calcScat` takes the
call of `phase_function` as a parameter `pf`, so that what it asks for can be stated; `crossSection` is the total cross section
that `phase_function` returns.  `pymie.index_ratio` is the quotient of indices and `pymie.size_parameter` is `2π n r / wavelen`.
-/

namespace Verif.CalcScat
noncomputable section
open Classical XF SingleScat

/-- `pymie.index_ratio(n_particle, n)` -/
def indexRatio (n_particle : List ℂ) (n : ℂ) : List ℂ := n_particle.map (· / n)

/-- `pymie.size_parameter(wavelen, n, radius)` -/
def sizeParameter (wavelen : ℝ) (n : ℂ) (radius : List ℝ) : List ℂ := radius.map fun r : ℝ => 2 * Real.pi * n / wavelen * r

/-- the arguments of `calc_scat` (lengths in one unit). /repo/structcol/montecarlo.py:833-849 -/
structure Args where
  radius : List ℝ
  n_particle : List ℂ
  n_sample : ℂ
  volume_fraction : ℝ
  wavelen : ℝ
  radius2 : Option (List ℝ)
  concentration : Option (ℝ × ℝ)
  pdi : Option (ℝ × ℝ)
  polydisperse : Bool
  fields : Bool
  fine_roughness : ℝ
  min_angle : ℝ
  num_angles : ℕ
  num_phis : ℕ
  structure_type : StructType
  form_type : Option String
  n_matrix : Option ℂ
  effective_medium_struct : Bool
  effective_medium_form : Bool

/-- the arguments `calc_scat` gives `phase_function`, except the angles and the data arrays.
/repo/structcol/montecarlo.py:1027-1038, 1058-1067 -/
structure Call where
  m : List ℂ
  x : List ℂ
  k : ℂ
  number_density : XF
  n_sample : ℂ
  diameters : List ℝ × List ℝ
  concentration : ℝ × ℝ
  pdi : Option (ℝ × ℝ)
  form_type : Option String
  structure_type : StructType
  cartesian : Bool
  x_eff : Option (List ℂ)

/-- the outermost radius, `radius.max()` -/
def outer (r : List ℝ) : ℝ := r.foldr max 0

/-- `n_sample` and `x_eff` after the three `if`s; `None` in place of an index is a TypeError in the next line.
/repo/structcol/montecarlo.py:950-964 -/
def sampleFor (a : Args) : Except PyErr (ℂ × Option (List ℂ)) :=
  let x_eff := if a.effective_medium_struct && !a.effective_medium_form then some (sizeParameter a.wavelen a.n_sample a.radius) else none
  if a.effective_medium_form then .ok (a.n_sample, x_eff)
  else match a.n_matrix with
    | some n => .ok (n, x_eff)
    | none => .error .typeError

/-- `radius2` and `concentration` with their defaults. /repo/structcol/montecarlo.py:967-977 -/
def radius2Of (a : Args) : List ℝ := a.radius2.getD a.radius
def concentrationOf (a : Args) : ℝ × ℝ := a.concentration.getD (1, 0)

/-- `number_density`. /repo/structcol/montecarlo.py:976-984 -/
def densityOf (a : Args) : XF :=
  Init.numberDensity (outer a.radius) (some (outer (radius2Of a))) (some (concentrationOf a)) a.volume_fraction

/-- the types of form and structure factor; by the time of the check `radius2` and `concentration` are never None.
/repo/structcol/montecarlo.py:987-998 -/
def typesFor (a : Args) : Except PyErr (Option String × StructType) :=
  if a.polydisperse then
    if a.pdi.isNone then .error .valueError
    else if 1 < a.n_particle.length then .error .valueError
    else .ok (some "polydisperse", match a.structure_type with
      | .str "data" => .str "data"
      | _ => .str "polydisperse")
  else .ok (a.form_type, a.structure_type)

/-- `mean_diameters`. /repo/structcol/montecarlo.py:1001-1002 -/
def diametersOf (a : Args) : List ℝ × List ℝ := (a.radius.map (2 * ·), (radius2Of a).map (2 * ·))

/-- the call of `phase_function`, given the index and the types chosen. /repo/structcol/montecarlo.py:962-964, 1027-1038 -/
def mainCall (a : Args) (n : ℂ) (x_eff : Option (List ℂ)) (form_type : Option String) (structure_type : StructType) : Call :=
  { m := indexRatio a.n_particle n, x := sizeParameter a.wavelen n a.radius, k := 2 * Real.pi * n / a.wavelen
    number_density := densityOf a, n_sample := n, diameters := diametersOf a, concentration := concentrationOf a, pdi := a.pdi
    form_type := form_type, structure_type := structure_type, cartesian := a.fields, x_eff := x_eff }

/-- the second call, for fine roughness: no structure factor, everything in the matrix. /repo/structcol/montecarlo.py:1054-1067 -/
def mieCall (a : Args) (n_matrix : ℂ) (form_type : Option String) : Call :=
  { m := indexRatio a.n_particle n_matrix, x := sizeParameter a.wavelen n_matrix a.radius, k := 2 * Real.pi * n_matrix / a.wavelen
    number_density := densityOf a, n_sample := n_matrix, diameters := diametersOf a, concentration := concentrationOf a, pdi := a.pdi
    form_type := form_type, structure_type := .none, cartesian := a.fields, x_eff := none }

/-- `calc_scat`: the phase function, the scattering coefficient (two of them with fine roughness) and the absorption coefficient.
/repo/structcol/montecarlo.py:833-1072 -/
def calcScat {P : Type} (pf : Call → Except PyErr (P × ℝ)) (a : Args) : Except PyErr (P × List XF × XF) := do
  let (n, x_eff) ← sampleFor a
  let (form_type, structure_type) ← typesFor a
  let (p, cscat_total) ← pf (mainCall a n x_eff form_type structure_type)
  let mu := Init.muScatAbs (densityOf a) cscat_total n.im a.wavelen
  if 0 < a.fine_roughness then
    match a.n_matrix with
    | none => .error .valueError
    | some nm =>
      let (_, cscat_total_mie) ← pf (mieCall a nm form_type)
      return (p, [mu.1, densityOf a * fin cscat_total_mie], mu.2)
  else return (p, [mu.1], mu.2)

/-- the scattering angles of `calc_scat`, and with `fields` the azimuthal ones. /repo/structcol/montecarlo.py:1013-1022 -/
def thetas (a : Args) (i : ℕ) : ℝ := Traj.linspace a.min_angle Real.pi a.num_angles i
def phis (a : Args) (i : ℕ) : ℝ := Traj.linspace a.min_angle (2 * Real.pi) a.num_phis i

/-- `distance`: half the diameters for polydisperse systems, half the largest diameter otherwise.
/repo/structcol/montecarlo.py:1152-1155 -/
def distanceOf (c : Call) : List ℝ :=
  if c.form_type = some "polydisperse" then [outer c.diameters.1 / 2, outer c.diameters.2 / 2]
  else [max (outer c.diameters.1) (outer c.diameters.2) / 2]

/-- `cscat_total` of `phase_function`, from the differential cross sections at the `num` angles.  `integ` is
`mie.integrate_intensity_complex_medium(par, perp, distance, ...)[0]`.  `len(concentration) > 1` always holds for calls from
`calc_scat`. /repo/structcol/montecarlo.py:1150, 1183-1233 -/
def crossSection (integ : List ℝ → ℝ) (c : Call) (num : ℕ) (par perp angles : ℕ → ℝ) : ℝ :=
  if c.cartesian then integ (distanceOf c)
  else if 0 < |c.k.im| then
    if c.form_type = some "polydisperse" then
      integ [outer c.diameters.1 / 2] * c.concentration.1 + integ [outer c.diameters.2 / 2] * c.concentration.2
    else integ (distanceOf c)
  else
    (integrateCS num par (fun _ => 1 / ‖c.k‖ ^ 2) angles (2 * Real.pi) +
     integrateCS num perp (fun _ => 1 / ‖c.k‖ ^ 2) angles (2 * Real.pi)) / 2

/-- `phase_function`: the phase function of `p = (par + perp)/sum(par + perp)` and the total cross section.
/repo/structcol/montecarlo.py:1075-1239 -/
def phaseFunction (dcs : Call → Except PyErr ((ℕ → ℝ) × (ℕ → ℝ))) (integ : (ℕ → ℝ) → (ℕ → ℝ) → List ℝ → ℝ) (num : ℕ) (angles : ℕ → ℝ)
    (c : Call) : Except PyErr ((Fin num → XF) × ℝ) := do
  let (par, perp) ← dcs c
  return (Init.phaseFunction (n := num) (fun i => par i) (fun i => perp i), crossSection (integ par perp) c num par perp angles)

end
end Verif.CalcScat
