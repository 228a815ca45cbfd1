import Verif.Model.SphereRun

/-!
# `calc_refl_trans` for a sphere with `detector=True`

The goniometer arguments act on the call made by the user only: `run_sphere_fresnel_traj` does not pass them on.
-/

namespace Verif.SphereGonio
noncomputable section
open Classical XF Verif.Spec Verif.Geometry Verif.SphereRun

variable {nt num : ℕ}

/-- The `Trajectory` after `shift_traj_tir` (which changes the z rows of positions and directions in place).
/repo/structcol/detector.py:1606-1620, 1833-1836 -/
def shifted (t : SphTrajs nt) (tir : Fin nt → ℕ) : SphTrajs nt :=
  let s := fun j => shiftTrajTir (fun n => (t.position n j).z) (fun n => (t.direction n j).z) (tir j)
  { position := fun i j => ⟨(t.position i j).x, (t.position i j).y, (s j).1 i⟩
    direction := fun i j => ⟨(t.direction i j).x, (t.direction i j).y, (s j).2 i⟩
    weight := t.weight }

/-- the trajectories that everything after the search for exits works with. /repo/structcol/detector.py:1833-1836 -/
def afterShift (nev : ℕ) (o : Weights.Optics) (D : ℝ) (t : SphTrajs nt) : SphTrajs nt :=
  shifted t (sphereEvents nev o D t).2.2.2

/-- `refl_indices` after `calc_indices_detected`, which is given the shifted trajectories and works with the plane z = 0 whatever
`boundary` is; `G` is (`det_theta`, `det_len`, `det_dist`). /repo/structcol/detector.py:1837-1840, 1442-1576 -/
def countedIndices (nev : ℕ) (o : Weights.Optics) (D : ℝ) (t : SphTrajs nt) (G : ℝ × ℝ × ℝ) : Fin nt → ℕ :=
  let s := afterShift nev o D t
  calcIndicesDetected (nev := nev) (sphereEvents nev o D t).1 (fun e j => (s.position e j).x) (fun e j => (s.position e j).y)
    (fun e j => (s.position e j).z) (fun e j => (s.direction e j).x) (fun e j => (s.direction e j).y)
    (fun e j => (s.direction e j).z) G.1 G.2.1 G.2.2 o.n_sample o.n_medium

/-- events and angles of the call. /repo/structcol/detector.py:1815-1881 -/
def gonioGeometry (nev : ℕ) (o : Weights.Optics) (D : ℝ) (t : SphTrajs nt) (G : ℝ × ℝ × ℝ) : Weights.Geometry nt :=
  let I := sphereEvents nev o D t
  let s := afterShift nev o D t
  let ri := countedIndices nev o D t G
  { ri := ri, ti := I.2.1, si := I.2.2.1
    thInc := entryAngle D s, thIncDet := entryAngle D s
    thRefl := exitAngle nev D s.position ri, thTrans := exitAngle nev D s.position I.2.1 }

/-- `calc_refl_trans(..., boundary='sphere', detector=True, det_theta=G.1, det_len=G.2.1, det_dist=G.2.2)`.  The light sent back at
the surface is started again from the shifted trajectories, and the nested call has no detector.
/repo/structcol/detector.py:1783-1960, 2161-2187 -/
def calcSphereGonio (D : ℝ) (m : Medium num) (draws : ℕ → Draws nt num) (run : Bool) (max_stuck : ℝ) (on : Weights.Optics)
    (o : Weights.Optics) (maxDepth nev : ℕ) (G : ℝ × ℝ × ℝ) (t : SphTrajs nt) : Except PyErr (Weights.RT nt) := do
  let l ← Weights.level o (gonioGeometry nev o D t G) none false (fun (e : Fin nev) j => t.weight e j)
  if run = true ∧ 0 < maxDepth ∧ (fin max_stuck : XF) < l.totalStuck then
    let I := sphereEvents nev o D t
    let s := afterShift nev o D t
    let start ← Restart.restart D (rowsP nev s.position) (rowsD nev s.direction)
      (Restart.restartIndices (countedIndices nev o D t G) I.2.1 I.2.2.2)
    let t' ← rerun (nev + 1) m (draws 1) start (Restart.restartWeight l.exit.reflFresnel l.exit.transFresnel l.out.stuck)
    let r ← calcSphere D m draws run max_stuck on on Weights.defaultMaxCallDepth 1 (nev + 1) t'
    return { R := r.R + ∑ j, (l.det.refl j + l.det.incRefl j) / fin nt
             T := r.T + ∑ j, l.det.trans j / fin nt
             reflPer := fun j => r.reflPer j + (l.det.refl j + l.det.incRefl j) / fin nt
             transPer := fun j => r.transPer j + l.det.trans j / fin nt }
  else
    return Weights.distribute l.exit l.det l.out.stuck .sphere true

end
end Verif.SphereGonio
