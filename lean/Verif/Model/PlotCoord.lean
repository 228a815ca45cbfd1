import Verif.Model.Traj

/-!
# What `Trajectory.plot_coord` draws

A plot is modelled by the data handed to matplotlib; styles and labels are not modelled.
-/

namespace Verif.Traj
noncomputable section
open Classical Verif.Spec

variable {nt : ℕ}

/-- The data drawn: for each of the three panels a curve for each trajectory (values over the event axis), and in three dimensions one cloud of
points after the other, with the number its colour has on the colour map. -/
structure CoordPlot where
  xs : List (List ℝ)
  ys : List (List ℝ)
  zs : List (List ℝ)
  clouds : List (ℝ × List V3)

/-- one panel: `ax[i].plot(np.arange(len(position[i,:,0])), position[i,:,:])` draws one curve for each column.
/repo/structcol/montecarlo.py:462-475 -/
def panel (nevents : ℕ) (c : V3 → ℝ) (position : ℕ → Fin nt → V3) : List (List ℝ) :=
  List.ofFn fun j : Fin nt => List.ofFn fun i : Fin (nevents + 1) => c (position i j)

/-- the cloud of trajectory `n`, in the next colour; `position[0,:,n]` is an IndexError beyond the last trajectory.
/repo/structcol/montecarlo.py:455-457, 485-489 -/
def cloud (nevents : ℕ) (position : ℕ → Fin nt → V3) (ntraj n : ℕ) : Except PyErr (ℝ × List V3) :=
  if h : n < nt then .ok (linspace 0 (9 / 10) ntraj n, List.ofFn fun i : Fin (nevents + 1) => position i ⟨n, h⟩) else .error .indexError

/-- `Trajectory.plot_coord`, for positions at `nevents + 1` points (a negative number of colours is a ValueError of `np.linspace`;
`position[0,:,0]` an IndexError without trajectories). /repo/structcol/montecarlo.py:441-489 -/
def plotCoord (nevents : ℕ) (position : ℕ → Fin nt → V3) (ntraj : ℤ) (three_dim : Bool) : Except PyErr CoordPlot :=
  if ntraj < 0 then .error .valueError
  else if nt = 0 then .error .indexError
  else do
    let clouds ← if three_dim then (List.range ntraj.toNat).mapM (cloud nevents position ntraj.toNat) else .ok []
    return { xs := panel nevents V3.x position, ys := panel nevents V3.y position, zs := panel nevents V3.z position, clouds := clouds }

end
end Verif.Traj
