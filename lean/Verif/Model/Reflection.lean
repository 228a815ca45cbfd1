import Verif.Model.ComplexFresnel
import Verif.Model.CalcScat

/-!
# Model of the whole of `reflection`, /repo/structcol/model.py:46-544

The effective index (`ri.n_eff`), the differential cross section (`differential_cross_section`), Mie's absorption cross section and
pymie's `integrate_intensity_complex_medium` are parameters, gathered in `Ext`.  Lengths are numbers of one unit (so the conversion
of `radius2` to the unit of `radius`, lines 202-205, is the identity).
-/

namespace Verif.Reflection
noncomputable section
open Classical XF SingleScat Fresnel CalcScat

/-- The arguments of `reflection`, angles in radians. /repo/structcol/model.py:46-66 -/
structure Args where
  n_particle : List ℂ
  n_matrix : ℂ
  n_medium : ℝ
  wavelen : ℝ
  radius : List ℝ
  volume_fraction : ℝ
  radius2 : Option (List ℝ)
  concentration : Option (ℝ × ℝ)
  pdi : Option (ℝ × ℝ)
  thickness : Option ℝ
  theta_min : ℝ
  theta_max : ℝ
  phi_min : ℝ
  phi_max : ℝ
  incident : ℝ
  num_angles : ℕ
  small_angle : ℝ
  structure_type : StructType
  form_type : Option String
  effective_medium_struct : Bool
  effective_medium_form : Bool

/-- The arguments given to `differential_cross_section`, except the angles and the data arrays.
/repo/structcol/model.py:345-368, /repo/structcol/montecarlo.py:1167-1179 -/
structure DcsCall where
  m : List ℂ
  x : List ℂ
  volume_fraction : ℝ
  structure_type : StructType
  form_type : Option String
  diameters : List ℝ × List ℝ
  concentration : Option (ℝ × ℝ)
  pdi : Option (ℝ × ℝ)
  wavelen : ℝ
  n_matrix : ℂ
  k : ℂ
  distance : List ℝ
  x_eff : Option (List ℂ)
  cartesian : Bool

/-- What is computed elsewhere.
`neff n_particle n_matrix vf` is `ri.n_eff`;
`dcs call angle` is `differential_cross_section`;
`cabs m x (wavelen/n)` is `mie.calc_cross_sections(...)[2]`;
`integ I1 I2 distance num angles k phi_min phi_max` are the first three results of `mie.integrate_intensity_complex_medium`. -/
structure Ext where
  neff : List ℂ → ℂ → List ℝ → Except PyErr ℂ
  dcs : DcsCall → Except PyErr (ℝ → ℝ × ℝ)
  cabs : List ℂ → List ℂ → ℂ → ℝ
  integ : (ℕ → XF) → (ℕ → XF) → ℝ → ℕ → (ℕ → ℝ) → ℂ → ℝ → ℝ → XF × XF × XF

/-- `np.exp` on doubles. /repo/structcol/model.py:525 -/
def xexp : XF → XF
  | fin a => fin (Real.exp a)
  | pinf => pinf
  | ninf => fin 0
  | nan => nan

/-- the number behind a finite value (pymie's integrals are finite) -/
def num : XF → ℝ
  | fin a => a
  | _ => 0

/-- `radius2` with its default. /repo/structcol/model.py:202-205 -/
def radius2Of (a : Args) : List ℝ := a.radius2.getD a.radius

/-- `rho`. /repo/structcol/model.py:221-229 -/
def rhoOf (a : Args) : ℝ := SingleScat.rho a.volume_fraction (outer a.radius) (outer (radius2Of a)) a.concentration

/-- `n_sample` and `x_eff`: with `effective_medium_form` and not `effective_medium_struct` no branch assigns `n_sample`.
/repo/structcol/model.py:243-266 -/
def sampleOf (E : Ext) (a : Args) : Except PyErr (ℂ × Option (List ℂ)) :=
  if a.effective_medium_struct then do
    let n ← E.neff a.n_particle a.n_matrix (vfArray a.volume_fraction a.radius)
    if a.effective_medium_form then return (n, none)
    else return (a.n_matrix, some (sizeParameter a.wavelen n a.radius))
  else if a.effective_medium_form then .error .unboundLocalError
  else .ok (a.n_matrix, none)

/-- `distance`. /repo/structcol/model.py:340-343 -/
def distanceOf (a : Args) : List ℝ :=
  if a.form_type = some "polydisperse" then [outer (a.radius.map (2 * ·)) / 2, outer ((radius2Of a).map (2 * ·)) / 2]
  else [max (outer (a.radius.map (2 * ·))) (outer ((radius2Of a).map (2 * ·))) / 2]

/-- the arguments of both calls of `differential_cross_section`. /repo/structcol/model.py:253-268, 345-368 -/
def dcsCall (a : Args) (n : ℂ) (x_eff : Option (List ℂ)) : DcsCall :=
  { m := indexRatio a.n_particle n, x := sizeParameter a.wavelen n a.radius, volume_fraction := a.volume_fraction
    structure_type := a.structure_type, form_type := a.form_type
    diameters := (a.radius.map (2 * ·), (radius2Of a).map (2 * ·)), concentration := a.concentration, pdi := a.pdi
    wavelen := a.wavelen, n_matrix := n, k := 2 * Real.pi * n / a.wavelen, distance := distanceOf a, x_eff := x_eff
    cartesian := false }

/-- `angles` and `angles_tot`. /repo/structcol/model.py:288-316 -/
def anglesDet (a : Args) (n : ℂ) (i : ℕ) : ℝ :=
  Traj.linspace (thetaRefracted a.n_medium ‖n‖ a.theta_min) (thetaRefracted a.n_medium ‖n‖ a.theta_max) a.num_angles i
def anglesTot (a : Args) (i : ℕ) : ℝ := Traj.linspace (0 + a.small_angle) Real.pi a.num_angles i

/-- a result of `integrate_intensity_complex_medium`, at the one distance, or averaged over the two species of a polydisperse system
with their concentrations (`len(None)` is a TypeError). /repo/structcol/model.py:371-455 -/
def atSurface (a : Args) (I : ℝ → XF) : Except PyErr XF :=
  if a.form_type = some "polydisperse" then
    match a.concentration with
    | none => .error .typeError
    | some c => .ok (I (outer (a.radius.map (2 * ·)) / 2) * fin c.1 + I (outer ((radius2Of a).map (2 * ·)) / 2) * fin c.2)
  else .ok (I (max (outer (a.radius.map (2 * ·))) (outer ((radius2Of a).map (2 * ·))) / 2))

/-- the integrals over the detected angles (parallel, perpendicular). /repo/structcol/model.py:376-403, 436-444 -/
def detected (E : Ext) (a : Args) (n : ℂ) (f : ℝ → ℝ × ℝ) (tp ts : ℕ → XF) (d : ℝ) : XF × XF × XF :=
  E.integ (fun i => fin (f (anglesDet a n i)).1 * tp i) (fun i => fin (f (anglesDet a n i)).2 * ts i) d a.num_angles (anglesDet a n)
    (2 * Real.pi * n / a.wavelen) a.phi_min a.phi_max

/-- the integral over all angles. /repo/structcol/model.py:405-417, 446-449 -/
def total (E : Ext) (a : Args) (n : ℂ) (f : ℝ → ℝ × ℝ) (d : ℝ) : XF :=
  (E.integ (fun i => fin (f (anglesTot a i)).1) (fun i => fin (f (anglesTot a i)).2) d a.num_angles (anglesTot a)
    (2 * Real.pi * n / a.wavelen) 0 (2 * Real.pi)).1

/-- the integral over all angles weighted with the cosine. /repo/structcol/model.py:419-435, 450-455 -/
def asymmetry (E : Ext) (a : Args) (n : ℂ) (f : ℝ → ℝ × ℝ) (d : ℝ) : XF :=
  (E.integ (fun i => fin ((f (anglesTot a i)).1 * Real.cos (anglesTot a i)))
    (fun i => fin ((f (anglesTot a i)).2 * Real.cos (anglesTot a i))) d a.num_angles (anglesTot a)
    (2 * Real.pi * n / a.wavelen) 0 (2 * Real.pi)).1

/-- the rest of `reflection` for an absorbing sample. /repo/structcol/model.py:274-334, 371-466, 517-544 -/
def absorbing (E : Ext) (a : Args) (n : ℂ) (f : ℝ → ℝ × ℝ) : Except PyErr ReflOut := do
  let (t_par, t_perp) ← fresnelTransmissionC (n := 1) a.n_medium n (fun _ => a.incident)
  let (r_par, r_perp) ← fresnelReflectionC (n := 1) a.n_medium n (fun _ => a.incident)
  let (tp, ts) ← fresnelTransmissionC (n := a.num_angles) n a.n_medium (fun i => Real.pi - anglesDet a n i)
  let ext : (Fin a.num_angles → XF) → ℕ → XF := fun t i => if h : i < a.num_angles then t ⟨i, h⟩ else fin 0
  let det_par ← atSurface a (fun d => (detected E a n f (ext tp) (ext ts) d).2.1)
  let det_perp ← atSurface a (fun d => (detected E a n f (ext tp) (ext ts) d).2.2)
  let cscat ← atSurface a (total E a n f)
  let asym_unpol ← atSurface a (asymmetry E a n f)
  let rho := rhoOf a
  let cabs := fin (4 * Real.pi * n.im / a.wavelen) / fin rho
  let asym := asym_unpol / cscat
  let transport_length := fin 1 / (fin 1 - asym) / fin rho / cscat
  let cext := cscat + cabs
  let factor := match a.thickness with
    | none => fin 1
    | some L => (fin 1 - xexp (fin (-rho) * cext * fin L)) * cscat / cext
  let reflected_par := t_par 0 * det_par / cext * factor + r_par 0
  let reflected_perp := t_perp 0 * det_perp / cext * factor + r_perp 0
  .ok { reflectance := (reflected_par + reflected_perp) / fin 2, par := reflected_par, perp := reflected_perp,
        asymmetry := asym, transport_length := transport_length }

/-- the inputs of the assembling part for a transparent sample (index `n` with no imaginary part).
/repo/structcol/model.py:268-334, 468-544 -/
def transparent (E : Ext) (a : Args) (n : ℂ) (call : DcsCall) (f : ℝ → ℝ × ℝ) : ReflIn :=
  { n_medium := a.n_medium, n_sample := n.re, incident := a.incident, theta_min := a.theta_min, theta_max := a.theta_max
    phi_min := a.phi_min, phi_max := a.phi_max, small_angle := a.small_angle, num := a.num_angles
    k := 2 * Real.pi * n.re / a.wavelen, rho := rhoOf a, cabs := E.cabs call.m call.x (a.wavelen / n), dcs := f }

/-- `reflection`.  A sample whose index has no imaginary part goes through the branch "no absorption in the system"
(Verif/Model/SingleScat.lean; the Fresnel coefficients of real indices agree, C120_real_indices).
/repo/structcol/model.py:46-544 -/
def reflection (E : Ext) (a : Args) : Except PyErr ReflOut :=
  if a.n_particle.length ≠ a.radius.length then .error .valueError
  else do
    let (n, x_eff) ← sampleOf E a
    let call := dcsCall a n x_eff
    let f ← E.dcs call
    if 0 < |n.im| then absorbing E a n f
    else SingleScat.reflection (transparent E a n call f) a.thickness

/-- the arguments `phase_function` gives `differential_cross_section` for a call from `calc_scat` with arguments `mc`.
/repo/structcol/montecarlo.py:1152-1179 -/
def ofPhase (mc : CalcScat.Args) (c : CalcScat.Call) : DcsCall :=
  { m := c.m, x := c.x, volume_fraction := mc.volume_fraction, structure_type := c.structure_type, form_type := c.form_type
    diameters := c.diameters, concentration := some c.concentration, pdi := c.pdi, wavelen := mc.wavelen, n_matrix := c.n_sample
    k := c.k, distance := CalcScat.distanceOf c, x_eff := c.x_eff, cartesian := c.cartesian }

/-- `calc_scat` with the same differential cross sections and integrals as `reflection`. /repo/structcol/montecarlo.py:833-1239 -/
def mcScat (E : Ext) (mc : CalcScat.Args) : Except PyErr ((Fin mc.num_angles → XF) × List XF × XF) :=
  calcScat (phaseFunction (num := mc.num_angles)
    (fun c => do
      let f ← E.dcs (ofPhase mc c)
      return (fun i => (f (CalcScat.thetas mc i)).1, fun i => (f (CalcScat.thetas mc i)).2))
    (fun par perp ds => num (E.integ (fun i => fin (par i)) (fun i => fin (perp i)) (ds.headD 0) mc.num_angles (CalcScat.thetas mc)
      (2 * Real.pi * (if mc.effective_medium_form then mc.n_sample else mc.n_matrix.getD 0) / mc.wavelen) 0 (2 * Real.pi)).1)
    (CalcScat.thetas mc)) mc

end
end Verif.Reflection
