import Verif.Model.Weights
import Verif.Model.Geometry
import Verif.Model.Init

/-!
# A complete film simulation

The sequence of calls of a Monte Carlo run of a film, as in the tutorials and in the helper `calc_montecarlo` of
/repo/structcol/tests/test_detector.py:586-637 (`calc_scat`, whose results are arguments here, then):
`initialize`, `Trajectory(r0, k0, W0)`, `sample_angles`, `sample_step`, `trajectories.absorb`, `trajectories.scatter`,
`trajectories.move`, `calc_refl_trans`.  Every part is the model of the function of that name; this file only composes them.
-/

namespace Verif.Simulation
noncomputable section
open Classical XF Verif.Spec Verif.Geometry Verif.Traj
open Verif.Geometry (XV)

variable {nt : ℕ}

/-- The number held by a float.  Simplification: `Trajectory`'s methods are modelled on real arrays, so a simulation in which
`initialize` or `sample_step` delivers NaN or infinity is not represented (the value 0 stands for it here); the theorems show
that this does not happen under their hypotheses.  Models no code. -/
def val : XF → ℝ
  | fin r => r
  | _ => 0

/-- `val` for the three coordinates.  Models no code. -/
def valV (v : XV) : V3 := ⟨val v.x, val v.y, val v.z⟩

/-- The parameters and draws of the sampling of steps and angles (the phase function on a grid of `num` angles).
/repo/structcol/montecarlo.py:1242, 1349 -/
structure Sampling (nt num : ℕ) where
  p : Fin num → ℝ
  min_angle : ℝ
  draw_theta : ℕ → Fin nt → Fin num
  rand_phi : ℕ → Fin nt → ℝ
  mu_scat : ℝ
  mu_scat_mie : Option ℝ
  fine_roughness : ℝ
  rand_step : ℕ → Fin nt → ℝ
  rand_mie : ℕ → ℝ
  mu_abs : ℝ

/-- The attributes of a `Trajectory` after the simulation, and the roughness arrays of `initialize`.
/repo/structcol/montecarlo.py:100-170 -/
structure Trajs (nt : ℕ) where
  position : ℕ → Fin nt → V3
  direction : ℕ → Fin nt → V3
  weight : ℕ → Fin nt → ℝ
  kz0_rot : Option (Fin nt → ℝ)
  kz0_refl : Option (Fin nt → ℝ)

/-- `initialize`, `sample_angles`, `sample_step`, `absorb`, `scatter`, `move`, in this order.
/repo/structcol/montecarlo.py:490-829, 1242-1405, 172-237, 413-439 -/
def simulate {num : ℕ} (nevents : ℕ) (a : Init.Args nt) (S : Sampling nt num) : Except PyErr (Trajs nt) := do
  let p0 ← Init.initializeTraj a
  let ang ← sampleAngles1 nevents S.p S.min_angle S.draw_theta S.rand_phi
  let step ← sampleStep nt S.mu_scat S.mu_scat_mie S.fine_roughness S.rand_step S.rand_mie
  let s := fun i j => val (step i j)
  let w := absorb p0.weight0 S.mu_abs s
  let k := scatter nevents (fun i j => valV (p0.k0 i j)) ang.sintheta ang.costheta ang.sinphi ang.cosphi
  let r := move (fun i j => valV (p0.r0 i j)) s k
  return { position := r, direction := k, weight := w
           kz0_rot := p0.kz0_rot.map fun f j => val (f j)
           kz0_refl := p0.kz0_refl.map fun f j => val (f j) }

/-- The arguments of `calc_refl_trans` for a film. /repo/structcol/detector.py:1619-1648 -/
structure DetArgs where
  n_medium : ℝ
  n_sample : ℝ
  thickness : ℝ
  z_low : ℝ
  n_front : Option ℝ
  n_back : Option ℝ
  detection_angle : ℝ
  fine_roughness : ℝ
  n_particle : Option ℝ
  n_matrix : Option ℝ
  /-- goniometer: `det_theta`, `det_len`, `det_dist`, when `detector=True` -/
  gonio : Option (ℝ × ℝ × ℝ)

/-- the optical constants, with `n_tir` as computed at the start of `calc_refl_trans`.
/repo/structcol/detector.py:1796-1814 -/
def DetArgs.optics (d : DetArgs) : Weights.Optics :=
  { n_medium := d.n_medium, n_sample := d.n_sample
    n_tir := Weights.nTir d.n_sample d.fine_roughness d.n_particle d.n_matrix
    n_front := d.n_front, n_back := d.n_back, detection_angle := d.detection_angle }

/-- What `calc_refl_trans` derives from the trajectories with `detector=True` (goniometer): exits are found from the original
arrays, then `shift_traj_tir` changes the z positions and directions, and everything later uses the changed arrays.
/repo/structcol/detector.py:1815-1843 -/
def gonioGeometry (nev : ℕ) (d : DetArgs) (t : Trajs nt) (det_theta det_len det_dist : ℝ) : Weights.Geometry nt :=
  let x : Fin (nev + 2) → Fin nt → ℝ := fun i j => (t.position i j).x
  let y : Fin (nev + 2) → Fin nt → ℝ := fun i j => (t.position i j).y
  let z : Fin (nev + 2) → Fin nt → ℝ := fun i j => (t.position i j).z
  let kx : Fin (nev + 1) → Fin nt → ℝ := fun i j => (t.direction i j).x
  let ky : Fin (nev + 1) → Fin nt → ℝ := fun i j => (t.direction i j).y
  let kz : Fin (nev + 1) → Fin nt → ℝ := fun i j => (t.direction i j).z
  let X := Exits.findValidExitsFilm d.optics.n_tir d.n_medium d.thickness d.z_low z kz
  let idx := Exits.findEventIndices X.neg X.pos X.tir
  let z' : Fin (nev + 2) → Fin nt → ℝ :=
    fun i j => (shiftTrajTir (fun n => (t.position n j).z) (fun n => (t.direction n j).z) (idx.2.2.2 j)).1 i
  let kz' : Fin (nev + 1) → Fin nt → ℝ :=
    fun i j => (shiftTrajTir (fun n => (t.position n j).z) (fun n => (t.direction n j).z) (idx.2.2.2 j)).2 i
  let ri := calcIndicesDetected idx.1 x y z' kx ky kz' det_theta det_len det_dist d.n_sample d.n_medium
  { ri := ri, ti := idx.2.1, si := idx.2.2.1
    thInc := Weights.incAngleFilm d.n_medium d.optics.n_tir (kz' 0) t.kz0_rot
    thIncDet := fun j => Weights.angleFilm (fin (kz' 0 j))
    thRefl := Weights.getAnglesFilm kz' ri
    thTrans := Weights.getAnglesFilm kz' idx.2.1 }

/-- `calc_refl_trans(trajectories, thickness, n_medium, n_sample, 'film', ...)` for trajectories of `nev + 1` events, with or
without the goniometer. /repo/structcol/detector.py:1783-1930 -/
def calcReflTransFilm (nev : ℕ) (d : DetArgs) (t : Trajs nt) : Except PyErr (Weights.RT nt) :=
  match d.gonio with
  | none =>
    Weights.calcReflTransFilm (nev := nev) d.optics d.thickness d.z_low (fun i j => (t.position i j).z)
      (fun i j => (t.direction i j).z) (fun i j => t.weight i j) t.kz0_rot t.kz0_refl false id
  | some (det_theta, det_len, det_dist) => do
    Weights.roughnessArgs t.kz0_rot t.kz0_refl
    Weights.calcReflTrans d.optics .film (gonioGeometry nev d t det_theta det_len det_dist) t.kz0_refl true
      (fun (i : Fin (nev + 1)) j => fin (t.weight i j))

/-- The whole run: simulate `nev + 1` events, then `calc_refl_trans`. /repo/structcol/tests/test_detector.py:595-637 -/
def runFilm {num : ℕ} (nev : ℕ) (a : Init.Args nt) (S : Sampling nt num) (d : DetArgs) :
    Except PyErr (Weights.RT nt) := do
  let t ← simulate (nev + 1) a S
  calcReflTransFilm nev d t

end
end Verif.Simulation
