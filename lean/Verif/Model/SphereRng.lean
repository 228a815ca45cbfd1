import Verif.Model.Rng
import Verif.Model.SphereRun

/-!
# Sphere simulations that draw from a random number generator

The numbers of the first simulation and those of all re-runs of reflected light come from a generator with a state (`Model/Rng.lean`).
-/

namespace Verif.SphereRng
noncomputable section
open Classical XF Verif.Spec Verif.Geometry Verif.Traj Verif.Simulation Verif.SphereRun Verif.Rng
open Verif.Geometry (XV)

variable {nt n : ℕ}

/-- `run_sphere_fresnel_traj` up to the nested call, as `SphereRun.rerun`, with the numbers taken from `rng` (`given`) or from `sc.rng`: first
`sample_angles`, then `sample_step`. /repo/structcol/detector.py:2056-2057, 2065-2159 -/
def rerunRng (given : Bool) (nevents : ℕ) (m : Medium (n + 1)) (start : Fin nt → XV × XV) (W : Fin nt → XF) (w : World) :
    Except PyErr (SphTrajs nt × World) := do
  let (ang, w) ← sampleAnglesRng given nevents m.p (1 / 100) w
  let (step, w) ← sampleStepRng given nevents nt m.mu_scat m.mu_scat_mie 0 w
  let s := fun i j => val (step i j)
  let k := scatter nevents (fun i j => if i = 0 then valV (start j).2 else V3.zero) ang.sintheta ang.costheta ang.sinphi
    ang.cosphi
  let r := move (fun i j => if i = 0 then valV (start j).1 else V3.zero) s k
  return ({ position := r, direction := k
            weight := fun i j => W j * fin (Real.exp (-(m.mu_abs * cumsum (fun n => s n j) i))) }, w)

/-- `calc_refl_trans(..., boundary='sphere', rng=...)` as `SphereRun.calcSphere`; `rng` is passed on to `run_sphere_fresnel_traj` and from there to the
nested call. /repo/structcol/detector.py:1783-1960, 1962-2187 -/
def calcSphereRng (given : Bool) (D : ℝ) (m : Medium (n + 1)) (run : Bool) (max_stuck : ℝ) (on : Weights.Optics) (o : Weights.Optics)
    (maxDepth depth nev : ℕ) (t : SphTrajs nt) (w : World) : Except PyErr (Weights.RT nt × World) := do
  let l ← Weights.level o (sphereGeometry nev o D t) none (decide (0 < depth)) (fun (e : Fin nev) j => t.weight e j)
  if _h : run = true ∧ depth < maxDepth ∧ (fin max_stuck : XF) < l.totalStuck then
    let I := sphereEvents nev o D t
    let start ← Restart.restart D (rowsP nev t.position) (rowsD nev t.direction) (Restart.restartIndices I.1 I.2.1 I.2.2.2)
    let (t', w) ← rerunRng given (nev + 1) m start (Restart.restartWeight l.exit.reflFresnel l.exit.transFresnel l.out.stuck) w
    let (r, w) ← calcSphereRng given D m run max_stuck on on Weights.defaultMaxCallDepth (depth + 1) (nev + 1) t' w
    return ({ R := r.R + ∑ j, (l.det.refl j + l.det.incRefl j) / fin nt
              T := r.T + ∑ j, l.det.trans j / fin nt
              reflPer := fun j => r.reflPer j + (l.det.refl j + l.det.incRefl j) / fin nt
              transPer := fun j => r.transPer j + l.det.trans j / fin nt }, w)
  else
    return (Weights.distribute l.exit l.det l.out.stuck .sphere false, w)
termination_by 2 * (Weights.defaultMaxCallDepth - depth) + min 1 (maxDepth - depth)
decreasing_by
  have _h1 := _h.2.1
  simp only [Weights.defaultMaxCallDepth] at *
  omega

/-- The whole run: simulate `nev` events in the sphere, then `calc_refl_trans`.  `rng` is an argument of both; `given` says whether it is passed to the
functions of the simulation, `givenRerun` whether it is passed to `calc_refl_trans`.  The draws in `a` and `S` are not used.
/repo/structcol/tests/test_montecarlo_bulk.py:71-129, /repo/structcol/detector.py:1649, 1908 -/
def runSphereRng (given givenRerun : Bool) (nev : ℕ) (a : Init.Args nt) (S : Sampling nt (n + 1)) (d : SphereArgs) (w : World) :
    Except PyErr (Weights.RT nt × World) := do
  let (t, w) ← simulateRng given nev a none S w
  calcSphereRng givenRerun d.thickness ⟨S.p, S.mu_scat, S.mu_scat_mie, S.mu_abs⟩ d.run_fresnel_traj d.max_stuck d.nested d.optics
    d.max_call_depth 0 nev ⟨t.position, t.direction, fun i j => fin (t.weight i j)⟩ w

end
end Verif.SphereRng
