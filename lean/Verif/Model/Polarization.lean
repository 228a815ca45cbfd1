import Verif.Model.Traj
import Mathlib.Algebra.BigOperators.Group.Finset.Basic
import Mathlib.Analysis.Complex.Basic

/-!
# Model of /repo/structcol/detector_polarization_phase.py

Fields are complex vectors `C3`, one column per trajectory, row `e` being the field after event `e` (row 0 is before the sample).
Simplification: the reflectance of each trajectory is a non-negative real number (`np.sqrt` of a negative number is NaN) and the fields
are finite.  The Mie dwell time (package `pymie`) is a parameter.
-/

namespace Verif.Polar
noncomputable section
open Verif.Traj (C3)
open Classical

variable {nt : ℕ}

/-- `refl_field_x`, `refl_field_y`, `refl_field_z`: the field at the exit event of each reflected trajectory times
`w = sqrt(refl_per_traj * ntraj)`, 0 if not reflected; `fields[., 1:, :]` starts at event 1, so `select_events` picks row `e`.
/repo/structcol/detector_polarization_phase.py:77-92 -/
def reflField (fields : ℕ → Fin nt → C3) (refl_indices : Fin nt → ℕ) (refl_per_traj : Fin nt → ℝ) (j : Fin nt) : C3 :=
  let w : ℂ := ((Real.sqrt (refl_per_traj j * nt) : ℝ) : ℂ)
  if 0 < refl_indices j then
    ⟨w * (fields (refl_indices j) j).x, w * (fields (refl_indices j) j).y, w * (fields (refl_indices j) j).z⟩
  else ⟨0, 0, 0⟩

/-- `tot_field_x`, `tot_field_y`, `tot_field_z`. /repo/structcol/detector_polarization_phase.py:94-97 -/
def totField (fields : ℕ → Fin nt → C3) (refl_indices : Fin nt → ℕ) (refl_per_traj : Fin nt → ℝ) : C3 :=
  ⟨∑ j, (reflField fields refl_indices refl_per_traj j).x, ∑ j, (reflField fields refl_indices refl_per_traj j).y,
   ∑ j, (reflField fields refl_indices refl_per_traj j).z⟩

/-- `np.conj(E) * E` -/
def conjMul (e : ℂ) : ℂ := (starRingEnd ℂ) e * e

/-- `calc_refl_phase_fields`: (`tot_field`, `refl_fields`, `refl_intensity_tot`).
/repo/structcol/detector_polarization_phase.py:35-126 -/
def calcReflPhaseFields (fields : ℕ → Fin nt → C3) (refl_indices : Fin nt → ℕ) (refl_per_traj : Fin nt → ℝ) : C3 × ℝ × ℝ :=
  let f := reflField fields refl_indices refl_per_traj
  let tot := totField fields refl_indices refl_per_traj
  let refl_non_phase : ℂ := ∑ j, (conjMul (f j).x + conjMul (f j).y + conjMul (f j).z)
  let refl_intensity : ℂ := conjMul tot.x + conjMul tot.y + conjMul tot.z
  (tot, (refl_intensity / (nt : ℂ)).re, (refl_non_phase / (nt : ℂ)).re)

/-- what `calc_refl_co_cross_fields` returns -/
structure CoCross where
  co : ℝ
  cr : ℝ
  perp : ℝ
  refl_field : ℝ
  refl_intensity : ℝ

/-- `calc_refl_co_cross_fields`; `det_theta` in radians. /repo/structcol/detector_polarization_phase.py:129-175 -/
def calcReflCoCrossFields (fields : ℕ → Fin nt → C3) (refl_indices : Fin nt → ℕ) (refl_per_traj : Fin nt → ℝ) (det_theta : ℝ) : CoCross :=
  let (tot, refl_field, refl_intensity) := calcReflPhaseFields fields refl_indices refl_per_traj
  let co : ℂ := tot.x * (Real.cos det_theta : ℝ) + tot.z * (Real.sin det_theta : ℝ)
  let cr : ℂ := tot.y
  let perp : ℂ := -tot.x * (Real.sin det_theta : ℝ) + tot.z * (Real.cos det_theta : ℝ)
  ⟨(conjMul co).re, (conjMul cr).re, (conjMul perp).re, refl_field, refl_intensity⟩

/-- `path_length_traj`: `np.sum(step[:exit_indices[i], i])` with `nsteps` rows; a slice past the end stops at the end.
/repo/structcol/detector_polarization_phase.py:220-225 -/
def pathLength (nsteps : ℕ) (step : ℕ → Fin nt → ℝ) (exit_indices : Fin nt → ℕ) (i : Fin nt) : ℝ :=
  ∑ j ∈ Finset.range (min (exit_indices i) nsteps), step j i

/-- `calc_traj_time`: (`traj_time`, `travel_time`), `c` the speed of light in vacuum, `n_sample` the real part of the index, `dwell` the Mie
dwell time in one particle (real; the code discards the imaginary part at the end).
/repo/structcol/detector_polarization_phase.py:178-248 -/
def calcTrajTime (nsteps : ℕ) (step : ℕ → Fin nt → ℝ) (exit_indices : Fin nt → ℕ) (c n_sample dwell : ℝ) :
    (Fin nt → ℝ) × (Fin nt → ℝ) :=
  let path := pathLength nsteps step exit_indices
  let velocity := c / n_sample
  let travel := fun i => path i / velocity
  (fun i => if path i = 0 then 0 else travel i + dwell, travel)

end
end Verif.Polar
