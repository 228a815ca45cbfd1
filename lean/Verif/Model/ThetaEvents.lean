import Verif.Model.Events

/-!
# `calc_thetas_event_traj` with the sizes of its arrays
-/

namespace Verif.Events
noncomputable section
open Classical

variable {nt : ℕ}

/-- `calc_thetas_event_traj` as `calcThetasEventTraj`, for an array `theta` of `rows` rows and `ntraj` columns: a row that does not exist is an IndexError.
Simplification: if no trajectory is reflected at an event, a missing row is ignored (as by the numpy versions that return an empty selection; others raise
the error then, too).  /repo/structcol/event_distribution.py:169-211 -/
def calcThetas (rows : ℕ) (theta : ℕ → Fin nt → ℝ) (ri : Fin nt → ℕ) (nevents : ℕ) : Except PyErr (ℕ → Fin nt → ℝ) :=
  (List.range' 1 (nevents - 1)).foldlM
    (fun s ev => if rows ≤ ev ∧ ∃ j, ri j = ev then .error .indexError
      else .ok (Function.update s ev fun j => if ri j = ev then theta ev j else s ev j)) (fun _ _ => 0)

end
end Verif.Events
