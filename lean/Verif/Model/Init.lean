import Verif.Model.Traj
import Verif.Model.Geometry

/-!
# Model of `initialize`, `coarse_roughness_enter`, `calc_scat` and `phase_function` in /repo/structcol/montecarlo.py
-/

namespace Verif.Init

noncomputable section
open Classical XF Verif.Spec Verif.Geometry

variable {nt : ℕ}

/-- the string argument `boundary` -/
inductive Boundary where
  | film
  | sphere
  | other
  deriving DecidableEq

/-- Arguments of `initialize` (lengths in micrometres, angles in radians) together with the numbers the generator delivers
during the call.  Simplification: the refractive indices are real (the code takes absolute values of complex ones).
/repo/structcol/montecarlo.py:490-497 -/
structure Args (nt : ℕ) where
  n_medium : ℝ
  n_sample : ℝ
  boundary : Boundary
  theta_min : ℝ
  theta_max : ℝ
  theta_data : Option (List ℝ)
  phi_min : ℝ
  phi_max : ℝ
  phi_data : Option (List ℝ)
  spot_size : ℝ
  sample_diameter : Option ℝ
  coarse_roughness : ℝ
  /-- film: draws for x, y, theta and phi -/
  ux : Fin nt → ℝ
  uy : Fin nt → ℝ
  ut : Fin nt → ℝ
  up : Fin nt → ℝ
  /-- sphere: draws for the radius and the polar angle -/
  ur : Fin nt → ℝ
  uth : Fin nt → ℝ
  /-- coarse roughness: the slope angles drawn -/
  theta_a : Fin nt → ℝ

/-- Values returned by `initialize`: positions, directions and weights (rows are events), and, with coarse roughness, the
z-direction relative to the facet and of the reflected light. -/
structure Props0 (nt : ℕ) where
  r0 : ℕ → Fin nt → XV
  k0 : ℕ → Fin nt → XV
  weight0 : ℕ → Fin nt → ℝ
  kz0_rot : Option (Fin nt → XF)
  kz0_refl : Option (Fin nt → XF)

/-- `rng.uniform(a, b)` for the uniform draw `u`. /repo/structcol/montecarlo.py:691 -/
def uniform (a b u : ℝ) : ℝ := a + (b - a) * u

/-- `rng.uniform` or the user's data: the angle of trajectory `j`; a wrong length is a ValueError.
/repo/structcol/montecarlo.py:683-702 -/
def incidence (data : Option (List ℝ)) (lo hi : ℝ) (u : Fin nt → ℝ) : Except PyErr (Fin nt → ℝ) :=
  match data with
  | some l => if h : l.length ≠ nt then .error .valueError else .ok fun j => l.get (j.cast (by omega))
  | none => .ok fun j => uniform lo hi (u j)

/-- row 0 of an array whose other rows stay zero. /repo/structcol/montecarlo.py:660-666 -/
def firstRow (v : Fin nt → XV) : ℕ → Fin nt → XV := fun n j => if n = 0 then v j else finV 0 0 0

/-- direction with polar angle `theta` and azimuth given by its sine and cosine.
/repo/structcol/montecarlo.py:755-757 -/
def direction (theta cosphi sinphi : XF) : XV := ⟨XF.sin theta * cosphi, XF.sin theta * sinphi, XF.cos theta⟩

/-- `coarse_roughness_enter` for one trajectory and one slope angle: the direction after refraction at the facet, the
z-direction relative to the facet, and the z-direction of the reflected light.
/repo/structcol/montecarlo.py:1488-1552 -/
def coarseEnter (k : XV) (n_medium n_sample theta_a : ℝ) : XV × XF × XF :=
  let s := fin (Real.sin theta_a)
  let c := fin (Real.cos theta_a)
  let kx_rot := c * k.x - s * k.z
  let ky_rot := k.y
  let kz_rot := s * k.x + c * k.z
  let m := XF.sqrt (kx_rot * kx_rot + ky_rot * ky_rot + kz_rot * kz_rot)
  let theta_rot := XF.arccos (kz_rot / m)
  let phi_rot := XF.arccos (kx_rot / m)
  let theta_refr := Root.refraction1 theta_rot (fin n_medium) (fin n_sample)
  let kx_rr := XF.sin theta_refr * XF.cos phi_rot
  let ky_rr := XF.sin theta_refr * XF.sin phi_rot
  let kz_rr := XF.cos theta_refr
  let c' := fin (Real.cos (2 * Real.pi - theta_a))
  let s' := fin (Real.sin (2 * Real.pi - theta_a))
  let k_refr : XV := ⟨c' * kx_rr - s' * kz_rr, ky_rr, s' * kx_rr + c' * kz_rr⟩
  let kz_refl := s' * kx_rot + c' * (-kz_rot)
  (k_refr, kz_rot, kz_refl)

/-- start point of trajectory `j` on the sphere. /repo/structcol/montecarlo.py:715-728 -/
def spherePoint (radius spot ur uth : ℝ) : XV :=
  let r := Real.sqrt ur * spot / 2
  let th := 2 * Real.pi * uth
  let x := r * Real.cos th
  let y := r * Real.sin th
  ⟨fin x, fin y, fin radius - XF.sqrt (fin (radius * radius - x * x - y * y))⟩

/-- `neg_normal`. /repo/structcol/montecarlo.py:731-736 -/
def negNormal (radius : ℝ) (p : XV) : XV :=
  let dz := p.z - fin radius
  let m := XF.sqrt (p.x * p.x + p.y * p.y + dz * dz)
  ⟨-p.x / m, -p.y / m, -dz / m⟩

/-- flat surface or coarse roughness. /repo/structcol/montecarlo.py:744-803 -/
def enter (a : Args nt) (r0 : Fin nt → XV) (theta cosphi sinphi : Fin nt → XF) : Except PyErr (Props0 nt) :=
  if a.coarse_roughness = 0 then
    .ok {
      r0 := firstRow r0
      k0 := firstRow fun j =>
        direction (Root.refraction1 (theta j) (XF.abs (fin a.n_medium)) (XF.abs (fin a.n_sample))) (cosphi j) (sinphi j)
      weight0 := fun _ _ => 1
      kz0_rot := none
      kz0_refl := none }
  else if a.boundary = .sphere then .error .valueError
  else
    let k := fun j => direction (theta j) (cosphi j) (sinphi j)
    .ok {
      r0 := firstRow r0
      k0 := firstRow fun j => (coarseEnter (k j) a.n_medium |a.n_sample| (a.theta_a j)).1
      weight0 := fun _ _ => 1
      kz0_rot := some fun j => (coarseEnter (k j) a.n_medium |a.n_sample| (a.theta_a j)).2.1
      kz0_refl := some fun j => (coarseEnter (k j) a.n_medium |a.n_sample| (a.theta_a j)).2.2 }

/-- `initialize`, without the optional fields (see `initFields`) and plot.  Simplification: `sample_diameter` is a Quantity
or None. /repo/structcol/montecarlo.py:490-829 -/
def initializeTraj (a : Args nt) : Except PyErr (Props0 nt) :=
  match a.boundary with
  | .film =>
    if a.sample_diameter.isSome then .error .valueError
    else
      match incidence a.theta_data a.theta_min a.theta_max a.ut with
      | .error e => .error e
      | .ok theta =>
        match incidence a.phi_data a.phi_min a.phi_max a.up with
        | .error e => .error e
        | .ok phi =>
          enter a (fun j => finV (a.ux j * a.spot_size) (a.uy j * a.spot_size) 0) (fun j => fin (theta j))
            (fun j => fin (Real.cos (phi j))) (fun j => fin (Real.sin (phi j)))
  | .sphere =>
    match a.sample_diameter with
    | none => .error .valueError
    | some d =>
      let p := fun j => spherePoint (d / 2) a.spot_size (a.ur j) (a.uth j)
      let nn := fun j => negNormal (d / 2) (p j)
      let theta := fun j => XF.arccos (nn j).z
      enter a p theta (fun j => (nn j).x / XF.sin (theta j)) (fun j => (nn j).y / XF.sin (theta j))
  | .other =>
    -- `theta` is never assigned
    .error .unboundLocalError

/-- The optional initial fields of one trajectory: rows 0 and 1 are the normalised incident field.
/repo/structcol/montecarlo.py:805-829 -/
def initFields (polarized coherent : Bool) (phase_x phase_y : ℝ) : ℕ → Traj.C3 :=
  let px := if coherent then 0 else 2 * Real.pi * phase_x
  let py := if coherent then 0 else 2 * Real.pi * phase_y
  let e := Traj.normalizeC ⟨Complex.exp (px * Complex.I), if polarized then 0 else Complex.exp (py * Complex.I), 0⟩
  fun n => if n ≤ 1 then ⟨e.x, e.y, 0⟩ else ⟨0, 0, 0⟩

/-- The number density of `calc_scat`; `radius2 = None` stands for a second radius equal to the first and
`concentration = None` for `[1, 0]`.  Radii are the outermost ones (`radius.max()`).
/repo/structcol/montecarlo.py:967-984 -/
def numberDensity (radius : ℝ) (radius2 : Option ℝ) (concentration : Option (ℝ × ℝ)) (volume_fraction : ℝ) : XF :=
  let r2 := radius2.getD radius
  let c := concentration.getD (1, 0)
  let term1 := fin 1 / (fin (radius ^ 3) + fin (r2 ^ 3) * fin c.2 / fin c.1)
  let term2 := fin 1 / (fin (r2 ^ 3) + fin (radius ^ 3) * fin c.1 / fin c.2)
  fin (3 * volume_fraction / (4 * Real.pi)) * (term1 + term2)

/-- `mu_scat = number_density * cscat_total` and `mu_abs = 4 pi Im(n) / wavelen` (in one length unit).
/repo/structcol/montecarlo.py:1005, 1040, 1044-1045 -/
def muScatAbs (number_density : XF) (cscat_total n_imag wavelen : ℝ) : XF × XF :=
  (number_density * fin cscat_total, fin (4 * Real.pi * n_imag) / fin wavelen)

/-- `p = (par + perp) / sum(par + perp)` in `phase_function`. /repo/structcol/montecarlo.py:1236-1237 -/
def phaseFunction {n : ℕ} (par perp : Fin n → ℝ) : Fin n → XF :=
  fun i => fin (par i + perp i) / fin (∑ k, (par k + perp k))

end
end Verif.Init
