import Verif.Model.Simulation
import Verif.Model.Geometry

/-!
# Haze of a complete run
`calc_refl_trans(..., return_extra=True)` followed by `calc_haze`, /repo/structcol/detector.py:1619-1958, 2263-2316
-/

namespace Verif.Simulation
noncomputable section
open Classical Verif.Root Verif.Traj Verif.Geometry Verif.Exits
open Verif (XF PyErr)

variable {nt : ℕ}

/-- `trans_indices` as `calc_refl_trans(..., return_extra=True)` returns them. /repo/structcol/detector.py:1827-1834, 1930-1932 -/
def transEvents (nev : ℕ) (d : DetArgs) (t : Trajs nt) : Fin nt → ℕ :=
  let X := findValidExitsFilm d.optics.n_tir d.n_medium d.thickness d.z_low (fun (i : Fin (nev + 2)) j => (t.position i j).z)
    (fun (i : Fin (nev + 1)) j => (t.direction i j).z)
  (findEventIndices X.neg X.pos X.tir).2.1

/-- A user's script: simulate, `calc_refl_trans(..., return_extra=True)`, and `calc_haze` with the trajectories and with the
transmittance of every trajectory, the total and the event numbers that it returned.  Simplification: results that are NaN are passed on
as 0, so that their haze is 0/0 (the theorems speak of runs whose transmittance is a positive number).
/repo/structcol/detector.py:1930-1949, 2263-2316 -/
def runHaze {num : ℕ} (nev : ℕ) (a : Init.Args nt) (S : Sampling nt num) (d : DetArgs) (cutoff : ℝ) :
    Except PyErr (Weights.RT nt × XF) := do
  let t ← simulate (nev + 1) a S
  let rt ← calcReflTransFilm nev d t
  return (rt, calcHaze (fun (i : Fin (nev + 1)) j => (t.direction i j).z) (fun j => val (rt.transPer j)) (val rt.T)
    (transEvents nev d t) cutoff)

end
end Verif.Simulation
