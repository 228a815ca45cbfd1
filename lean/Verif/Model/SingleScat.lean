import Verif.Model.Fresnel
import Verif.Model.Traj
import Verif.Model.Structure
import Mathlib.Analysis.SpecialFunctions.Gamma.Basic

/-!
# Model of the single-scattering model, /repo/structcol/model.py

Mie theory (package `pymie`) is a parameter: the differential cross section is a function of the angle.  The matrix and the sample
have a real index (the branch "no absorption in the system"; the particles may absorb).
-/

namespace Verif.SingleScat
noncomputable section
open Classical XF Fresnel
open Verif.Traj (linspace)

/-- `_number_density`. /repo/structcol/model.py:1240-1241 -/
def numberDensity (phi r : ℝ) : ℝ := 3 * phi / (4 * Real.pi * r ^ 3)

/-- `rho`; `r`, `r2` are the (outermost) radii of the two species. /repo/structcol/model.py:219-227 -/
def rho (phi r r2 : ℝ) (concentration : Option (ℝ × ℝ)) : ℝ :=
  match concentration with
  | none => numberDensity phi r
  | some (ca, cb) =>
    if ca = 0 ∨ cb = 0 then numberDensity phi r
    else 3 * phi / (4 * Real.pi) * (1 / (r ^ 3 + r2 ^ 3 * cb / ca) + 1 / (r2 ^ 3 + r ^ 3 * ca / cb))

/-- `vf_array`: the volume fraction of each layer, `r_array` being the radii with 0 in front.
/repo/structcol/model.py:231-237 -/
def vfArray (phi : ℝ) (radii : List ℝ) : List ℝ :=
  List.zipWith (fun r1 r0 => (r1 ^ 3 - r0 ^ 3) / ((0 :: radii).getLast (by simp)) ^ 3 * phi) radii (0 :: radii)

/-- the index of the sample used for the form factor, and whether a separate effective index is used for the structure factor.  With
`effective_medium_form` and not `effective_medium_struct` no branch assigns `n_sample`. /repo/structcol/model.py:243-251 -/
def sampleIndex (effective_medium_form effective_medium_struct : Bool) (n_matrix n_eff : ℝ) : Except PyErr (ℝ × Option ℝ) :=
  if effective_medium_form && effective_medium_struct then .ok (n_eff, none)
  else if effective_medium_struct then .ok (n_matrix, some n_eff)
  else if effective_medium_form then .error .unboundLocalError
  else .ok (n_matrix, none)

/-- `theta_min_refracted`, `theta_max_refracted`. /repo/structcol/model.py:288-309 -/
def thetaRefracted (n_medium n_sample theta : ℝ) : ℝ :=
  let s := Real.sin (Real.pi - theta) * n_medium / |n_sample|
  if 1 ≤ s then Real.pi / 2 else Real.pi - Real.arcsin s

/-- `scipy.integrate.trapezoid(y, x=x)` for `n` points -/
def trapz (n : ℕ) (y x : ℕ → ℝ) : ℝ := ∑ i ∈ Finset.range (n - 1), (x (i + 1) - x i) * (y i + y (i + 1)) / 2

/-- `_integrate_cross_section`. /repo/structcol/model.py:1126-1144 -/
def integrateCS (n : ℕ) (cs factor angles : ℕ → ℝ) (azi : ℝ) : ℝ :=
  azi * trapz n (fun i => cs i * factor i * Real.sin (angles i)) angles

/-- The inputs of the assembling part of `reflection`: indices, angles in radians, wavevector `k` in the sample, number density,
absorption cross section, dimensionless differential cross sections (parallel, perpendicular) by angle. -/
structure ReflIn where
  n_medium : ℝ
  n_sample : ℝ
  incident : ℝ
  theta_min : ℝ
  theta_max : ℝ
  phi_min : ℝ
  phi_max : ℝ
  small_angle : ℝ
  num : ℕ
  k : ℝ
  rho : ℝ
  cabs : ℝ
  dcs : ℝ → ℝ × ℝ

/-- the output of `reflection` -/
structure ReflOut where
  reflectance : XF
  par : XF
  perp : XF
  asymmetry : XF
  transport_length : XF

/-- the angles integrated over, and the total range. /repo/structcol/model.py:313-316 -/
def angles (a : ReflIn) (i : ℕ) : ℝ :=
  linspace (thetaRefracted a.n_medium a.n_sample a.theta_min) (thetaRefracted a.n_medium a.n_sample a.theta_max) a.num i
def anglesTot (a : ReflIn) (i : ℕ) : ℝ := linspace (0 + a.small_angle) Real.pi a.num i

/-- `cscat_detected_par`, `cscat_detected_perp`; `transmission` is `fresnel_transmission(n_sample, n_medium, pi - angles)`.
/repo/structcol/model.py:320, 472-478 -/
def cscatDetectedPar (a : ReflIn) : ℝ :=
  integrateCS a.num (fun i => (a.dcs (angles a i)).1)
    (fun i => (1 - rPar a.n_sample a.n_medium (Real.pi - angles a i)) / |a.k| ^ 2) (angles a) (a.phi_max - a.phi_min)
def cscatDetectedPerp (a : ReflIn) : ℝ :=
  integrateCS a.num (fun i => (a.dcs (angles a i)).2)
    (fun i => (1 - rPerp a.n_sample a.n_medium (Real.pi - angles a i)) / |a.k| ^ 2) (angles a) (a.phi_max - a.phi_min)

/-- `cscat_total`. /repo/structcol/model.py:480-488 -/
def cscatTotal (a : ReflIn) : ℝ :=
  (integrateCS a.num (fun i => (a.dcs (anglesTot a i)).1) (fun _ => 1 / |a.k| ^ 2) (anglesTot a) (2 * Real.pi) +
   integrateCS a.num (fun i => (a.dcs (anglesTot a i)).2) (fun _ => 1 / |a.k| ^ 2) (anglesTot a) (2 * Real.pi)) / 2

/-- `asymmetry_par + asymmetry_perp`. /repo/structcol/model.py:490-498 -/
def asymmetrySum (a : ReflIn) : ℝ :=
  integrateCS a.num (fun i => (a.dcs (anglesTot a i)).1) (fun i => Real.cos (anglesTot a i) * 1 / |a.k| ^ 2) (anglesTot a) (2 * Real.pi) +
  integrateCS a.num (fun i => (a.dcs (anglesTot a i)).2) (fun i => Real.cos (anglesTot a i) * 1 / |a.k| ^ 2) (anglesTot a) (2 * Real.pi)

/-- `transport_cscat`, computed but not returned. /repo/structcol/model.py:502-510 -/
def transportCscat (a : ReflIn) : ℝ :=
  (integrateCS a.num (fun i => (a.dcs (anglesTot a i)).1) (fun i => (1 - Real.cos (anglesTot a i)) * 1 / |a.k| ^ 2) (anglesTot a) (2 * Real.pi) +
   integrateCS a.num (fun i => (a.dcs (anglesTot a i)).2) (fun i => (1 - Real.cos (anglesTot a i)) * 1 / |a.k| ^ 2) (anglesTot a) (2 * Real.pi)) / 2

/-- `factor`. /repo/structcol/model.py:520-527 -/
def attenuation (a : ReflIn) (thickness : Option ℝ) : XF :=
  match thickness with
  | none => fin 1
  | some L => fin (1 - Real.exp (-a.rho * (cscatTotal a + a.cabs) * L)) * fin (cscatTotal a) / fin (cscatTotal a + a.cabs)

/-- `reflection` from the Fresnel coefficients on, for a real sample index. /repo/structcol/model.py:274-544 -/
def reflection (a : ReflIn) (thickness : Option ℝ) : Except PyErr ReflOut := do
  let (t_par, t_perp) ← fresnelTransmission (n := 1) a.n_medium a.n_sample (fun _ => fin a.incident)
  let (r_par, r_perp) ← fresnelReflection (n := 1) a.n_medium a.n_sample (fun _ => fin a.incident)
  let _ ← fresnelTransmission (n := a.num) a.n_sample a.n_medium (fun i => fin (Real.pi - angles a i))
  let cscat_total := fin (cscatTotal a)
  let asym := fin (asymmetrySum a) / cscat_total / fin 2
  let transport_length := fin 1 / (fin 1 - asym) / fin a.rho / cscat_total
  let cext := cscat_total + fin a.cabs
  let reflected_par := t_par 0 * fin (cscatDetectedPar a) / cext * attenuation a thickness + r_par 0
  let reflected_perp := t_perp 0 * fin (cscatDetectedPerp a) / cext * attenuation a thickness + r_perp 0
  .ok { reflectance := (reflected_par + reflected_perp) / fin 2, par := reflected_par, perp := reflected_perp,
        asymmetry := asym, transport_length := transport_length }

/-! ## Size distribution -/

/-- the unnormalised distribution; `factorial(t)` of scipy is Γ(t+1).  In the second branch the standard deviation is computed from the
diameter at hand, not from the mean. /repo/structcol/model.py:1110-1122 -/
def rawDistribution (mean t : ℝ) (d : ℝ) : ℝ :=
  if t ≤ 100 then
    ((t + 1) / mean) ^ (t + 1) * d ^ t / Real.Gamma (t + 1) * Real.exp (-d / mean * (t + 1))
  else
    let std_dev := d / Real.sqrt (t + 1)
    Real.exp (-(d - mean) ^ 2 / (2 * std_dev ^ 2)) / Real.sqrt (2 * Real.pi * std_dev ^ 2)

/-- `size_distribution`. /repo/structcol/model.py:1082-1124 -/
def sizeDistribution (n : ℕ) (diameters : ℕ → ℝ) (mean t : ℝ) : ℕ → XF :=
  fun i => fin (rawDistribution mean t (diameters i)) / fin (trapz n (fun j => rawDistribution mean t (diameters j)) diameters)

/-- the diameter range of one species: `pdi` clamped from below, 50 diameters within three standard deviations, the lowest replaced by
1e-6 when negative. /repo/structcol/model.py:805-836 -/
def polyWidth (pdi : ℝ) : ℝ := |1 / Structure.clampPdi pdi ^ 2| - 1
def minDiameter (d pdi : ℝ) : ℝ :=
  let m := d - 3 * d / Real.sqrt (polyWidth pdi + 1)
  if m < 0 then 0.000001 else m
def maxDiameter (d pdi : ℝ) : ℝ := d + 3 * d / Real.sqrt (polyWidth pdi + 1)
def diameterRange (d pdi : ℝ) (i : ℕ) : ℝ := linspace (minDiameter d pdi) (maxDiameter d pdi) 50 i

/-- the polydisperse form factor at one angle and one polarisation: `form d` is the monodisperse form factor of diameter `d` there.
/repo/structcol/model.py:824-932 -/
def polydisperseFormFactor (form : ℝ → ℝ) (species : List Structure.Species) : ℝ :=
  (species.map fun s =>
    trapz 50 (fun i => form (diameterRange s.d s.pdi i) *
      (rawDistribution s.d (polyWidth s.pdi) (diameterRange s.d s.pdi i) /
        trapz 50 (fun j => rawDistribution s.d (polyWidth s.pdi) (diameterRange s.d s.pdi j)) (diameterRange s.d s.pdi)))
      (diameterRange s.d s.pdi) * s.c).sum

/-! ## Dispatch on the types of form and structure factor -/

/-- `structure_type`: None, a string, a dictionary (its 'name' and 'sigma' entries, if any), or anything else -/
inductive StructType
  | none
  | str (s : String)
  | dict (name : Option String) (hasSigma : Bool)
  | other

/-- which optional arguments of `differential_cross_section` are given (not None); `layers` is the number of entries of `m` -/
structure Given where
  diameters : Bool
  concentration : Bool
  pdi : Bool
  wavelen : Bool
  n_matrix : Bool
  k : Bool
  kAbsorbing : Bool
  distance : Bool
  cartesian : Bool
  s_data : Bool
  qd_data : Bool
  layers : ℕ

/-- which form factor is computed -/
inductive Form
  | one
  | mieAngular
  | mieComplexMedium
  | poly
deriving DecidableEq

/-- which structure factor is computed -/
inductive Struct
  | one
  | glass
  | para
  | data
  | poly
deriving DecidableEq

/-- the form factor branch. /repo/structcol/model.py:661-699, 799-801 -/
def formBranch (form_type : Option String) (g : Given) : Except PyErr Form :=
  match form_type with
  | some "sphere" =>
    if g.k && (g.kAbsorbing || g.cartesian) then
      if g.distance then .ok .mieComplexMedium else .error .valueError
    else .ok .mieAngular
  | some "polydisperse" =>
    if !g.diameters || !g.concentration || !g.pdi || !g.wavelen || !g.n_matrix then .error .valueError
    else if 1 < g.layers then .error .valueError
    else .ok .poly
  | none => .ok .one
  | some _ => .error .valueError

/-- the structure factor branch; `factor_data` with None arrays: `None[0]` is a TypeError, a missing `qd_data` too
(`interp1d(None, …)` raises ValueError). /repo/structcol/model.py:701-745 -/
def structBranch (structure_type : StructType) (g : Given) : Except PyErr Struct :=
  match structure_type with
  | .dict name hasSigma =>
    match name with
    | none => .error .keyError
    | some nm => if nm = "paracrystal" then (if hasSigma then .ok .para else .error .keyError) else .error .valueError
  | .str s =>
    if s = "glass" then .ok .glass
    else if s = "paracrystal" then .ok .para
    else if s = "data" then (if !g.s_data then .error .typeError else if !g.qd_data then .error .valueError else .ok .data)
    else if s = "polydisperse" then
      if !g.diameters || !g.concentration || !g.pdi then .error .valueError
      else if 1 < g.layers then .error .valueError
      else .ok .poly
    else .error .valueError
  | .none => .ok .one
  | .other => .error .valueError

/-- the dispatch of `differential_cross_section`. /repo/structcol/model.py:549-750 -/
def dispatch (form_type : Option String) (structure_type : StructType) (g : Given) : Except PyErr (Form × Struct) := do
  let f ← formBranch form_type g
  let s ← structBranch structure_type g
  return (f, s)

/-- `qd`: four times the largest (effective, if given) size parameter times sin(angle/2). /repo/structcol/model.py:701-706 -/
def qd (x : List ℝ) (x_eff : Option (List ℝ)) (angle : ℝ) : ℝ :=
  4 * ((x_eff.getD x).map fun v => |v|).foldr max 0 * Real.sin (angle / 2)

/-- the value returned by `differential_cross_section` at one angle: `structure` is the structure factor of the branch chosen as a function of
`qd` (of `q` if polydisperse, `qd` divided by the first diameter), `form` the pair of form factors of the branch chosen; 1 if the type is
None. /repo/structcol/model.py:695-697, 735-750 -/
def diffCS (br : Form × Struct) (form : Form → ℝ → ℝ × ℝ) (struct : Struct → ℝ → ℝ) (x : List ℝ) (x_eff : Option (List ℝ)) (d0 angle : ℝ) : ℝ × ℝ :=
  let f := if br.1 = .one then (1, 1) else form br.1 angle
  let s := if br.2 = .one then 1 else if br.2 = .poly then struct .poly (qd x x_eff angle / d0) else struct br.2 (qd x x_eff angle)
  (s * f.1, s * f.2)

end
end Verif.SingleScat
