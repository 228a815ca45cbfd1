import Verif.Model.Restart
import Verif.Model.Simulation

/-!
# A complete sphere simulation

`initialize`, `sample_angles`, `sample_step`, `absorb`, `scatter`, `move` for a sphere (`Simulation.simulate`), then
`calc_refl_trans(..., 'sphere')` with all levels of `run_sphere_fresnel_traj`, in which every generation of photons really
is started where the previous one met the surface and simulated with fresh draws.  (`Weights.calcRec` leaves the generations
arbitrary; here they are computed.)
-/

namespace Verif.SphereRun
noncomputable section
open Classical XF Verif.Spec Verif.Geometry Verif.Traj Verif.Simulation
open Verif.Geometry (XV)

variable {nt num : ℕ}

/-- A `Trajectory` in a sphere: positions and directions are numbers, weights may be NaN. -/
structure SphTrajs (nt : ℕ) where
  position : ℕ → Fin nt → V3
  direction : ℕ → Fin nt → V3
  weight : ℕ → Fin nt → XF

/-- Arguments of `calc_refl_trans` for a sphere of diameter `thickness`.  Simplification: without goniometer
(`detector=False`) and without `kz0_rot`/`kz0_refl` (coarse roughness is refused for spheres by `initialize`); `z_low` is not
used for spheres. /repo/structcol/detector.py:1623-1653 -/
structure SphereArgs where
  n_medium : ℝ
  n_sample : ℝ
  thickness : ℝ
  n_front : Option ℝ
  n_back : Option ℝ
  detection_angle : ℝ
  fine_roughness : ℝ
  n_particle : Option ℝ
  n_matrix : Option ℝ
  run_fresnel_traj : Bool
  max_call_depth : ℕ
  max_stuck : ℝ

/-- optical constants of the call made by the user. /repo/structcol/detector.py:1796-1814 -/
def SphereArgs.optics (a : SphereArgs) : Weights.Optics :=
  { n_medium := a.n_medium, n_sample := a.n_sample
    n_tir := Weights.nTir a.n_sample a.fine_roughness a.n_particle a.n_matrix
    n_front := a.n_front, n_back := a.n_back, detection_angle := a.detection_angle }

/-- optical constants of nested calls: only `n_medium` and `n_sample` are passed on, everything else has its default.
/repo/structcol/detector.py:2161-2180 -/
def SphereArgs.nested (a : SphereArgs) : Weights.Optics :=
  { n_medium := a.n_medium, n_sample := a.n_sample, n_tir := a.n_sample, n_front := none, n_back := none
    detection_angle := Real.pi / 2 }

/-- rows `0..n` of the positions, as an array -/
def rowsP (n : ℕ) (a : ℕ → Fin nt → V3) : Fin (n + 1) → Fin nt → V3 := fun e j => a e j
/-- rows `0..n-1` of the directions, as an array -/
def rowsD (n : ℕ) (a : ℕ → Fin nt → V3) : Fin n → Fin nt → V3 := fun e j => a e j

/-- `find_valid_exits` then `find_event_indices`: reflected, transmitted, stuck and totally reflected event numbers.
/repo/structcol/detector.py:1815-1832 -/
def sphereEvents (nev : ℕ) (o : Weights.Optics) (D : ℝ) (t : SphTrajs nt) :
    (Fin nt → ℕ) × (Fin nt → ℕ) × (Fin nt → ℕ) × (Fin nt → ℕ) :=
  let X := Restart.sphereTables o.n_tir o.n_medium D (rowsP nev t.position) (rowsD nev t.direction)
  Exits.findEventIndices X.neg X.pos X.tir

/-- `get_angles(indices, 'sphere', ...)`: selected positions before and after the event, relative to the centre.
/repo/structcol/detector.py:342-423 -/
def exitAngle (nev : ℕ) (D : ℝ) (pos : ℕ → Fin nt → V3) (idx : Fin nt → ℕ) (j : Fin nt) : XF :=
  let p0 := Restart.selV (fun (e : Fin nev) j => Restart.centred D (rowsP nev pos e.castSucc j)) idx j
  let p1 := Restart.selV (fun (e : Fin nev) j => Restart.centred D (rowsP nev pos e.succ j)) idx j
  (getAnglesSphere (finV p0.x p0.y p0.z) (finV p1.x p1.y p1.z) (D / 2)).1

/-- `get_angles(ones, 'sphere', ..., init_dir=...)`: first position and first direction.
/repo/structcol/detector.py:350-368, 927, 1198 -/
def entryAngle (D : ℝ) (t : SphTrajs nt) (j : Fin nt) : XF :=
  let p := Restart.centred D (t.position 0 j)
  let k := t.direction 0 j
  (getAnglesSphereInit (finV p.x p.y p.z) (finV k.x k.y k.z)).1

/-- Events and angles of one call of `calc_refl_trans` for a sphere. /repo/structcol/detector.py:1815-1881 -/
def sphereGeometry (nev : ℕ) (o : Weights.Optics) (D : ℝ) (t : SphTrajs nt) : Weights.Geometry nt :=
  let I := sphereEvents nev o D t
  { ri := I.1, ti := I.2.1, si := I.2.2.1
    thInc := entryAngle D t, thIncDet := entryAngle D t
    thRefl := exitAngle nev D t.position I.1, thTrans := exitAngle nev D t.position I.2.1 }

/-- The scattering data and the random numbers of one generation. -/
structure Draws (nt num : ℕ) where
  draw_theta : ℕ → Fin nt → Fin num
  rand_phi : ℕ → Fin nt → ℝ
  rand_step : ℕ → Fin nt → ℝ
  rand_mie : ℕ → ℝ

/-- What is passed down to `run_sphere_fresnel_traj`: phase function and coefficients. /repo/structcol/detector.py:1897-1911 -/
structure Medium (num : ℕ) where
  p : Fin num → ℝ
  mu_scat : ℝ
  mu_scat_mie : Option ℝ
  mu_abs : ℝ

/-- `run_sphere_fresnel_traj` up to the nested call: a new `Trajectory` of `nevents` events starting at `start` (position,
direction) with weight `W` in every row; `sample_angles` and `sample_step` with default `min_angle` and `fine_roughness`;
`absorb`, `scatter`, `move`.  Simplification: see `Simulation.val` for positions, directions and steps.
/repo/structcol/detector.py:2065-2159 -/
def rerun (nevents : ℕ) (m : Medium num) (g : Draws nt num) (start : Fin nt → XV × XV) (W : Fin nt → XF) :
    Except PyErr (SphTrajs nt) := do
  let ang ← sampleAngles1 nevents m.p (1 / 100) g.draw_theta g.rand_phi
  let step ← sampleStep nt m.mu_scat m.mu_scat_mie 0 g.rand_step g.rand_mie
  let s := fun i j => val (step i j)
  let k := scatter nevents (fun i j => if i = 0 then valV (start j).2 else V3.zero) ang.sintheta ang.costheta ang.sinphi
    ang.cosphi
  let r := move (fun i j => if i = 0 then valV (start j).1 else V3.zero) s k
  return { position := r, direction := k
           weight := fun i j => W j * fin (Real.exp (-(m.mu_abs * cumsum (fun n => s n j) i))) }

/-- `calc_refl_trans(..., boundary='sphere')` at call depth `depth` on trajectories of `nev` events; nested generations have
one event more (`nevents = x.shape[0]` counts the rows of positions).  `o` are this call's optical constants, `on` those of
nested calls; `maxDepth` is this call's `max_call_depth`, nested calls have the default.  `draws depth` are the random numbers
used to simulate the generation of that depth. /repo/structcol/detector.py:1783-1960, 1962-2187 -/
def calcSphere (D : ℝ) (m : Medium num) (draws : ℕ → Draws nt num) (run : Bool) (max_stuck : ℝ) (on : Weights.Optics)
    (o : Weights.Optics) (maxDepth depth nev : ℕ) (t : SphTrajs nt) : Except PyErr (Weights.RT nt) := do
  let l ← Weights.level o (sphereGeometry nev o D t) none (decide (0 < depth)) (fun (e : Fin nev) j => t.weight e j)
  if _h : run = true ∧ depth < maxDepth ∧ (fin max_stuck : XF) < l.totalStuck then
    let I := sphereEvents nev o D t
    let start ← Restart.restart D (rowsP nev t.position) (rowsD nev t.direction) (Restart.restartIndices I.1 I.2.1 I.2.2.2)
    let t' ← rerun (nev + 1) m (draws (depth + 1)) start
      (Restart.restartWeight l.exit.reflFresnel l.exit.transFresnel l.out.stuck)
    let r ← calcSphere D m draws run max_stuck on on Weights.defaultMaxCallDepth (depth + 1) (nev + 1) t'
    return { R := r.R + ∑ j, (l.det.refl j + l.det.incRefl j) / fin nt
             T := r.T + ∑ j, l.det.trans j / fin nt
             reflPer := fun j => r.reflPer j + (l.det.refl j + l.det.incRefl j) / fin nt
             transPer := fun j => r.transPer j + l.det.trans j / fin nt }
  else
    return Weights.distribute l.exit l.det l.out.stuck .sphere false
termination_by 2 * (Weights.defaultMaxCallDepth - depth) + min 1 (maxDepth - depth)
decreasing_by
  have _h1 := _h.2.1
  simp only [Weights.defaultMaxCallDepth] at *
  omega

/-- The whole run: simulate `nev` events in the sphere, then `calc_refl_trans`.
the sequence of calls of /repo/structcol/tests/test_montecarlo_bulk.py:71-129 -/
def runSphere (nev : ℕ) (a : Init.Args nt) (S : Sampling nt num) (d : SphereArgs) (draws : ℕ → Draws nt num) :
    Except PyErr (Weights.RT nt) := do
  let t ← simulate nev a S
  calcSphere d.thickness ⟨S.p, S.mu_scat, S.mu_scat_mie, S.mu_abs⟩ draws d.run_fresnel_traj d.max_stuck d.nested d.optics
    d.max_call_depth 0 nev ⟨t.position, t.direction, fun i j => fin (t.weight i j)⟩

end
end Verif.SphereRun
