import Verif.Model.Geometry
import Verif.Model.Weights
import Verif.Spec

/-!
# Re-running internally reflected light in a sphere: `find_valid_exits` (sphere, complete) and `run_sphere_fresnel_traj`

Positions and directions are finite (`V3`); `pos` has one row more than `dir`.
-/

namespace Verif.Restart
noncomputable section
open Classical XF Root Verif.Spec Verif.Geometry

variable {nev nt : ℕ}

/-- `select_events` of one coordinate, as an `XF` column -/
def selV (a : Fin nev → Fin nt → V3) (indices : Fin nt → ℕ) (j : Fin nt) : V3 :=
  ⟨sel (fun e j => (a e j).x) indices j, sel (fun e j => (a e j).y) indices j, sel (fun e j => (a e j).z) indices j⟩

/-- `potential_exit_indices`. /repo/structcol/detector.py:731-734 -/
def potentialIndices (thickness : ℝ) (pos : Fin (nev + 1) → Fin nt → V3) : Fin nt → ℕ :=
  Exits.firstEvent (Exits.potentialSphere thickness (fun e j => (pos e j).x) (fun e j => (pos e j).y) (fun e j => (pos e j).z))

/-- positions relative to the centre of the sphere, as `get_angles` uses them (`z = z - radius`).
/repo/structcol/detector.py:342-349 -/
def centred (thickness : ℝ) (p : V3) : V3 := ⟨p.x, p.y, p.z - thickness / 2⟩

/-- `kz_correct = exit_kz(potential_exit_indices, ...)`. /repo/structcol/detector.py:733-739, 171-229 -/
def kzCorrect (n_sample n_medium thickness : ℝ) (pos : Fin (nev + 1) → Fin nt → V3) (dir : Fin nev → Fin nt → V3) : Fin nt → XF :=
  fun j =>
    let idx := potentialIndices thickness pos
    let p0 := selV (fun e j => centred thickness (pos e.castSucc j)) idx j
    let p1 := selV (fun e j => centred thickness (pos e.succ j)) idx j
    let k1 := selV dir idx j
    exitKz (finV p0.x p0.y p0.z) (finV p1.x p1.y p1.z) (finV k1.x k1.y k1.z) thickness n_sample n_medium

/-- `find_valid_exits` for a sphere, complete. /repo/structcol/detector.py:717-757 -/
def sphereTables (n_sample n_medium thickness : ℝ) (pos : Fin (nev + 1) → Fin nt → V3) (dir : Fin nev → Fin nt → V3) :
    Exits.ExitTables nev nt :=
  Exits.findValidExitsSphere thickness (fun e j => (pos e j).x) (fun e j => (pos e j).y) (fun e j => (pos e j).z)
    (kzCorrect n_sample n_medium thickness pos dir)

/-- `rotate_reflect` on columns that may contain NaN. /repo/structcol/detector.py:2190-2216 -/
def rotateReflectX (k n : XV) : XV :=
  let d := k.x * n.x + k.y * n.y + k.z * n.z
  ⟨k.x - fin 2 * d * n.x, k.y - fin 2 * d * n.y, k.z - fin 2 * d * n.z⟩

/-- `indices = refl_indices + trans_indices + tir_indices`. /repo/structcol/detector.py:2077 -/
def restartIndices (ri ti tii : Fin nt → ℕ) : Fin nt → ℕ := fun j => ri j + ti j + tii j

/-- Where and in which direction `run_sphere_fresnel_traj` starts each trajectory again: (`positions[:, 0]`, `directions[:, 0]`).
An event number past the last row is an IndexError of `select_events`. `radius*np.ones((nevents, ntraj))` has as many rows as `x`.
/repo/structcol/detector.py:2056-2138 -/
def restart (thickness : ℝ) (pos : Fin (nev + 1) → Fin nt → V3) (dir : Fin nev → Fin nt → V3) (indices : Fin nt → ℕ) :
    Except PyErr (Fin nt → XV × XV) :=
  if ∃ j, nev < indices j then .error .indexError
  else .ok fun j =>
    let radius := thickness / 2
    let p1 := selV (fun e => pos e.succ) indices j
    let p0 := selV (fun e => pos e.castSucc) indices j
    let q := infToLarge (finV p0.x p0.y p0.z) (finV p1.x p1.y p1.z) radius
    let select_radius : XF := fin (sel (fun (_ : Fin (nev + 1)) _ => radius) indices j)
    let inter := findVecSphereIntersect ⟨q.1.x, q.1.y, q.1.z - select_radius⟩ ⟨q.2.x, q.2.y, q.2.z - select_radius⟩ radius
    let inter : XV := ⟨inter.x, inter.y, inter.z + select_radius⟩
    let k := selV dir indices j
    let normal : XV := ⟨inter.x / fin radius, inter.y / fin radius, (inter.z - select_radius) / fin radius⟩
    (inter, rotateReflectX (finV k.x k.y k.z) normal)

/-- the weight each trajectory is started again with. /repo/structcol/detector.py:2070-2073 -/
def restartWeight (reflFresnel transFresnel stuck : Fin nt → XF) : Fin nt → XF := fun j => reflFresnel j + transFresnel j + stuck j

end
end Verif.Restart
