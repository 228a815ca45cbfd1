import Verif.Model.Root
import Verif.Model.Exits
import Mathlib.Algebra.BigOperators.Fin

/-!
# Model of the geometrical helpers of /repo/structcol/detector.py

`inf_to_large`, `find_vec_sphere_intersect`, `exit_kz`, `rotate_refract`, `get_angles`, `calc_refracted_direction`,
`calc_indices_detected`, `select_tir_traj`, `shift_traj_tir`, `rotate_reflect`, `normalize_refl_goniometer`, `calc_haze`.

NumPy applies these formulas to each array entry (trajectory) separately; the model gives the formula for one
trajectory where no information crosses trajectories, and the array form otherwise.
-/

namespace Verif.Geometry
noncomputable section
open Classical XF Root

/-- A column of a `(3, ntraj)` array. -/
@[ext] structure XV where
  x : XF
  y : XF
  z : XF

/-- a column with finite entries -/
def finV (x y z : ℝ) : XV := ⟨fin x, fin y, fin z⟩

/-- `normalize` with the default `return_nan=True`, one column (`Lemmas.Geometry.normalize_col` relates it to the array
model `Root.normalize`). /repo/structcol/__init__.py:73-97 -/
def normalizeCol (v : XV) : XV :=
  ⟨v.x / magnitude v.x v.y v.z, v.y / magnitude v.x v.y v.z, v.z / magnitude v.x v.y v.z⟩

/-- `a[a > 1e20*radius] = 100*radius` then `a[a < -1e20*radius] = -100*radius`.
/repo/structcol/detector.py:77-87 -/
def clipBoth (radius : ℝ) (a : XF) : XF :=
  let a := if (fin (10 ^ 20 * radius) : XF) < a then fin (100 * radius) else a
  if a < fin (-(10 ^ 20) * radius) then fin (-100 * radius) else a

/-- `z0` only has its upper side replaced: there is no `z0[z0 < -1e20*radius] = ...` line.
/repo/structcol/detector.py:79 -/
def clipUpper (radius : ℝ) (a : XF) : XF :=
  if (fin (10 ^ 20 * radius) : XF) < a then fin (100 * radius) else a

/-- `inf_to_large`, one column. /repo/structcol/detector.py:50-89 -/
def infToLarge (p0 p1 : XV) (radius : ℝ) : XV × XV :=
  (⟨clipBoth radius p0.x, clipBoth radius p0.y, clipUpper radius p0.z⟩,
   ⟨clipBoth radius p1.x, clipBoth radius p1.y, clipBoth radius p1.z⟩)

/-- squared distance of two columns, as in `dist_p`/`dist_m`. /repo/structcol/detector.py:148-151 -/
def distSq (p q : XV) : XF :=
  (p.x - q.x) * (p.x - q.x) + (p.y - q.y) * (p.y - q.y) + (p.z - q.z) * (p.z - q.z)

/-- The two solutions `t_p`, `t_m` of the quadratic. /repo/structcol/detector.py:130-135 (and 1528-1532) -/
def quadratic (a b c : XF) : XF × XF :=
  let s := XF.sqrt (b * b - fin 4 * a * c)
  ((-b + s) / (fin 2 * a), (-b - s) / (fin 2 * a))

/-- `find_vec_sphere_intersect`, one column. /repo/structcol/detector.py:92-168 -/
def findVecSphereIntersect (p0 p1 : XV) (radius : ℝ) : XV :=
  let k := normalizeCol ⟨p1.x - p0.x, p1.y - p0.y, p1.z - p0.z⟩
  let a := k.x * k.x + k.y * k.y + k.z * k.z
  let b := fin 2 * (k.x * p0.x + k.y * p0.y + k.z * p0.z)
  let c := p0.x * p0.x + p0.y * p0.y + p0.z * p0.z - fin radius * fin radius
  let t := quadratic a b c
  let int_p : XV := ⟨p0.x + t.1 * k.x, p0.y + t.1 * k.y, p0.z + t.1 * k.z⟩
  let int_m : XV := ⟨p0.x + t.2 * k.x, p0.y + t.2 * k.y, p0.z + t.2 * k.z⟩
  let dist_p := nanToNum (distSq int_p p1)
  let dist_m := nanToNum (distSq int_m p1)
  if dist_m < dist_p then int_m else if dist_p < dist_m then int_p else finV 0 0 0

/-- `rotate_refract`, one column: `p = (a,b,c)` anchor, `u = (u,v,w)` axis, `k` the vector, `alpha` the angle.
/repo/structcol/detector.py:232-305 -/
def rotateRefract (p u k : XV) (alpha : XF) : XV :=
  let x := p.x + k.x
  let y := p.y + k.y
  let z := p.z + k.z
  let x_rot := (p.x * (u.y * u.y + u.z * u.z) - u.x * (p.y * u.y + p.z * u.z - u.x * x - u.y * y - u.z * z))
      * (fin 1 - XF.cos alpha) + x * XF.cos alpha
      + (-p.z * u.y + p.y * u.z - u.z * y + u.y * z) * XF.sin alpha
  let y_rot := (p.y * (u.x * u.x + u.z * u.z) - u.y * (p.x * u.x + p.z * u.z - u.x * x - u.y * y - u.z * z))
      * (fin 1 - XF.cos alpha) + y * XF.cos alpha
      + (p.z * u.x - p.x * u.z + u.z * x - u.x * z) * XF.sin alpha
  let z_rot := (p.z * (u.x * u.x + u.y * u.y) - u.z * (p.x * u.x + p.y * u.y - u.x * x - u.y * y - u.z * z))
      * (fin 1 - XF.cos alpha) + z * XF.cos alpha
      + (-p.y * u.x + p.x * u.y - u.y * x + u.x * y) * XF.sin alpha
  ⟨x_rot - p.x, y_rot - p.y, z_rot - p.z⟩

/-- `np.cross`, one column. Used at /repo/structcol/detector.py:207 -/
def crossX (a b : XV) : XV :=
  ⟨a.y * b.z - a.z * b.y, a.z * b.x - a.x * b.z, a.x * b.y - a.y * b.x⟩

/-- `np.nan_to_num(norm)`, one column. /repo/structcol/detector.py:466 -/
def nanToNumV (v : XV) : XV := ⟨nanToNum v.x, nanToNum v.y, nanToNum v.z⟩

/-- `get_angles` for a sphere and no `init_dir`, one column; `p0`, `p1` are the selected positions before and after the
event, already shifted so that the sphere is centred at the origin (both zero when there is no event).  Returns the
angle and the normal. /repo/structcol/detector.py:342-423, 466 -/
def getAnglesSphere (p0 p1 : XV) (radius : ℝ) : XF × XV :=
  let q := infToLarge p0 p1 radius
  let k1 := normalizeCol ⟨q.2.x - q.1.x, q.2.y - q.1.y, q.2.z - q.1.z⟩
  let inter := findVecSphereIntersect q.1 q.2 radius
  let norm := normalizeCol inter
  let dot_norm := norm.x * k1.x + norm.y * k1.y + norm.z * k1.z
  (XF.arccos (nanToNum dot_norm), nanToNumV norm)

/-- `get_angles` for a sphere with `init_dir` given: `k1` is the direction *inside* the sphere at event 1, `p` the initial
position (sphere centred at the origin). /repo/structcol/detector.py:350-368, 414-423, 466 -/
def getAnglesSphereInit (p k1 : XV) : XF × XV :=
  let norm := normalizeCol ⟨-p.x, -p.y, -p.z⟩
  let dot_norm := norm.x * k1.x + norm.y * k1.y + norm.z * k1.z
  (XF.arccos (nanToNum dot_norm), nanToNumV norm)

/-- `np.sign` on a finite number. -/
def sgn (a : ℝ) : ℝ := if 0 < a then 1 else if a < 0 then -1 else 0

/-- `get_angles` for a film, one column, no `init_dir`: `kz` is the selected direction (0 when there is no event).
/repo/structcol/detector.py:445-463 -/
def getAnglesFilm (cosz : ℝ) : XF × XV := (XF.arccos (XF.abs (fin cosz)), finV 0 0 (sgn cosz))

/-- `get_angles(indices, 'film', ...)` on arrays. /repo/structcol/detector.py:445-468 -/
def getAnglesFilmArr {nev nt : ℕ} (indices : Fin nt → ℕ) (kz : Fin nev → Fin nt → ℝ) : Fin nt → XF × XV :=
  fun j => getAnglesFilm (sel kz indices j)

/-- `exit_kz` for a sphere, one column; `k1` is the selected direction. /repo/structcol/detector.py:171-229 -/
def exitKz (p0 p1 k1 : XV) (thickness n_inside n_outside : ℝ) : XF :=
  let an := getAnglesSphere p0 p1 (thickness / 2)
  let theta_1 := an.1
  let norm := an.2
  let kr := crossX k1 norm
  let theta_2 := refraction1 theta_1 (fin n_inside) (fin n_outside)
  let theta := theta_2 - theta_1
  let anchor : XV := ⟨norm.x * fin thickness / fin 2, norm.y * fin thickness / fin 2, norm.z * fin thickness / fin 2⟩
  (rotateRefract anchor kr k1 theta).z

/-- `kz_1[pos_kz] = -kz_1[pos_kz]`: a positive z direction is negated. /repo/structcol/detector.py:1396-1397 -/
def negatePositive (z : XF) : XF := if (fin 0 : XF) < z then -z else z

/-- `calc_refracted_direction`, one column; returns the refracted direction and the crossing point with the film plane.
The in-place negation of a positive `kz_1` is applied to the caller's (freshly selected) array.
/repo/structcol/detector.py:1336-1439 -/
def calcRefractedDirection (k1 p1 : XV) (n1 n2 : ℝ) : XV × XV :=
  let x_plane := -p1.z / k1.z * k1.x + p1.x
  let y_plane := -p1.z / k1.z * k1.y + p1.y
  let plane : XV := ⟨x_plane, y_plane, fin 0⟩
  let kz_1 := negatePositive k1.z
  let u := normalizeCol ⟨-k1.y, k1.x, fin 0⟩
  let theta_1 := XF.arccos (XF.abs kz_1)
  let theta_2 := refraction1 theta_1 (fin n1) (fin n2)
  let alpha := -(theta_2 - theta_1)
  (rotateRefract plane u ⟨k1.x, k1.y, kz_1⟩ alpha, plane)

/-- Where the refracted ray meets the detection hemisphere. /repo/structcol/detector.py:1510-1541 -/
def hemispherePoint (k p : XV) (det_theta det_len det_dist : ℝ) : XV :=
  let det_rad := Real.sqrt (det_dist ^ 2 + (det_len / 2) ^ 2)
  let a := k.x * k.x + k.y * k.y + k.z * k.z
  let b := fin 2 * (k.x * p.x + k.y * p.y + k.z * p.z)
  let c := p.x * p.x + p.y * p.y + p.z * p.z - fin (det_rad ^ 2)
  let t := quadratic a b c
  let t := if det_theta < Real.pi / 2 then t.1 else t.2
  ⟨p.x + t * k.x, p.y + t * k.y, p.z + t * k.z⟩

/-- The test in the loop of `calc_indices_detected`. /repo/structcol/detector.py:1513-1523, 1550-1552 -/
def insideDetector (q : XV) (det_theta det_len det_dist : ℝ) : Prop :=
  let delta_x := det_len * Real.cos det_theta
  let x_center := det_dist * Real.sin det_theta
  (q.x < fin (x_center + delta_x / 2) ∧ fin (x_center - delta_x / 2) < q.x) ∧
  (q.y < fin (0 + det_len / 2) ∧ fin (0 - det_len / 2) < q.y) ∧ q.z < fin 0

/-- `calc_indices_detected`.  `pos` has one row more than `dir`; event `m` selects row `m` of `pos` (`x[1:]`) and row
`m-1` of `dir`. /repo/structcol/detector.py:1442-1576 -/
def calcIndicesDetected {nev nt : ℕ} (indices : Fin nt → ℕ) (px py pz : Fin (nev + 1) → Fin nt → ℝ)
    (kx ky kz : Fin nev → Fin nt → ℝ) (det_theta det_len det_dist nsample nmedium : ℝ) : Fin nt → ℕ :=
  fun j =>
    let s := fun (a : Fin nev → Fin nt → ℝ) => (fin (sel a indices j) : XF)
    let p0 : XV := ⟨s (fun e => px e.succ), s (fun e => py e.succ), s (fun e => pz e.succ)⟩
    let k0 : XV := ⟨s kx, s ky, s kz⟩
    let r := calcRefractedDirection k0 p0 nsample nmedium
    let q := hemispherePoint r.1 r.2 det_theta det_len det_dist
    if insideDetector q det_theta det_len det_dist then indices j else 0

/-- `outarray` before the loop of `select_tir_traj`, one trajectory: the value at the tir event (if any), the first row,
zero elsewhere. /repo/structcol/detector.py:1585-1593 -/
def tirInit (col : ℕ → ℝ) (event : ℕ) : ℕ → ℝ :=
  fun i => if i = 0 then col 0 else if 0 < event ∧ event - 1 = i then col i else 0

/-- `select_tir_traj`, one trajectory: row `i ≥ 1` becomes `-inarray[i]` if row `i-1` of the output is non-zero, and then
`inarray[i]` if it is (still) zero. /repo/structcol/detector.py:1579-1603 -/
def selectTirTraj (col : ℕ → ℝ) (event : ℕ) : ℕ → ℝ
  | 0 => tirInit col event 0
  | i + 1 =>
    let o := if selectTirTraj col event i ≠ 0 then -col (i + 1) else tirInit col event (i + 1)
    if o = 0 then col (i + 1) else o

/-- `shift_traj_tir`, one trajectory: the new z positions and z directions. /repo/structcol/detector.py:1606-1620 -/
def shiftTrajTir (z kz : ℕ → ℝ) (tir_event : ℕ) : (ℕ → ℝ) × (ℕ → ℝ) :=
  (selectTirTraj z tir_event, selectTirTraj kz tir_event)

/-- `rotate_reflect`, one column. /repo/structcol/detector.py:2190-2216.  Real arithmetic: it contains no operation that
can create a NaN from finite input. -/
def rotateReflect (k n : ℝ × ℝ × ℝ) : ℝ × ℝ × ℝ :=
  let d := k.1 * n.1 + k.2.1 * n.2.1 + k.2.2 * n.2.2
  (k.1 - 2 * d * n.1, k.2.1 - 2 * d * n.2.1, k.2.2 - 2 * d * n.2.2)

/-- `normalize_refl_goniometer`. /repo/structcol/detector.py:2219-2261 -/
def normalizeReflGoniometer (refl det_dist det_len det_theta : ℝ) : XF :=
  let area_frac := fin (2 * Real.pi * det_dist ^ 2) / fin (det_len ^ 2)
  let coeff := area_frac * XF.cos (fin det_theta)
  coeff * fin refl

/-- `calc_haze`. /repo/structcol/detector.py:2263-2316 -/
def calcHaze {nev nt : ℕ} (kz : Fin nev → Fin nt → ℝ) (trans_per_traj : Fin nt → ℝ) (transmittance : ℝ)
    (trans_indices : Fin nt → ℕ) (cutoff : ℝ) : XF :=
  let angles := fun j => XF.arccos (XF.abs (fin (sel kz trans_indices j)))
  let trans_forward := ∑ j, if angles j < fin cutoff then trans_per_traj j else 0
  let trans_diffuse := transmittance - trans_forward
  fin trans_diffuse / fin transmittance

end
end Verif.Geometry
