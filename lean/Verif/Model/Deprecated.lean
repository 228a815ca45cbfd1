import Verif.Model.Events
import Mathlib.Analysis.Complex.Exponential

/-!
# Model of the coherent ("phase") branches of /repo/structcol/event_distribution.py

Objects and modules are described by the names they have; reading another name is an AttributeError.
-/

namespace Verif.Deprecated

noncomputable section
open Classical XF Verif.Events

variable {nt nev : ℕ}

/-- the attributes, properties and methods of a `Trajectory`. /repo/structcol/montecarlo.py:145-170 and the methods below -/
def trajectoryNames : List String :=
  ["position", "direction", "weight", "fields", "nevents", "absorb", "scatter", "calc_fields", "move", "plot_coord"]

/-- the names of the module `structcol.detector`: its imports, its constant and its functions. /repo/structcol/detector.py:34-47 and
every `def` -/
def detectorNames : List String :=
  ["copy", "warnings", "plt", "np", "random", "sc", "model", "mc", "normalize", "refraction", "select_events", "EPS",
   "inf_to_large", "find_vec_sphere_intersect", "exit_kz", "rotate_refract", "get_angles", "fresnel_pass_frac", "detect_correct",
   "set_up_values", "find_valid_exits", "find_event_indices", "calc_outcome_weights", "fresnel_correct_enter",
   "fresnel_correct_exit", "detect_corrected_traj", "distribute_ambig_traj_weights", "calc_refracted_direction",
   "calc_indices_detected", "select_tir_traj", "shift_traj_tir", "calc_refl_trans", "run_sphere_fresnel_traj", "rotate_reflect",
   "normalize_refl_goniometer", "calc_haze"]

/-- reading an attribute -/
def getAttr (names : List String) (name : String) : Except PyErr Unit := if name ∈ names then .ok () else .error .attributeError

/-- `calc_tir` with `phase=True`, for an object that has the attributes `names`, with polarisation `pol` and phase `ph` (component,
event, trajectory) if it has these: the reflected array are intensities of summed fields, the other three arrays stay zero.
Simplification: the weights `tir_all_refl` are assumed to be numbers (the square root of their real value is taken; NaN aside).
/repo/structcol/event_distribution.py:286-412 -/
def calcTirPhase (names : List String) (pol ph : Fin 3 → ℕ → Fin nt → ℝ) (tir : Fin nev → Fin nt → Bool) (ri ti : Fin nt → ℕ)
    (w : (Fin nt → ℕ) → Except PyErr (Fin nt → ℝ)) : Except PyErr ((ℕ → ℝ) × (ℕ → ℂ) × (ℕ → ℝ) × (ℕ → ℝ) × (Fin nt → ℕ)) := do
  let idx := tirIndices tir ri ti
  let idxRefl := fun j => if idx j ≠ 0 then ri j else 0
  let allRefl ← w idxRefl
  let idxSingle := fun j => if idx j ≠ 2 then 0 else idx j
  let _ ← w (fun j => if idxSingle j = 2 then ri j else 0)
  getAttr names "polarization"
  getAttr names "phase"
  let field : Fin 3 → ℕ → Fin nt → ℂ := fun c ev j => pol c ev j * Complex.exp (ph c ev j * Complex.I)
  let tot : Fin 3 → ℕ → ℂ := fun c => (List.range' 1 (nev - 1)).foldl
    (fun s ev => addAt s ev (sumAt (fun j => Real.sqrt (allRefl j) * field c ev j) idxRefl ev)) (fun _ => 0)
  return (fun _ => 0,
    fun ev => starRingEnd ℂ (tot 0 ev) * tot 0 ev + starRingEnd ℂ (tot 1 ev) * tot 1 ev + starRingEnd ℂ (tot 2 ev) * tot 2 ev,
    fun _ => 0, fun _ => 0, idxSingle)

/-- `calc_tir_phase_event_input`, for a module `det` with the given names: the times and the weights come from two of its functions,
`trajTime` and `phaseTime`, if it has them. /repo/structcol/event_distribution.py:415-486 -/
def calcTirPhaseEventInput (names : List String) (trajTime phaseTime : Except PyErr (Fin nt → ℝ))
    (tir : Fin nev → Fin nt → Bool) (ri : Fin nt → ℕ) : Except PyErr ((Fin nt → ℝ) × (Fin nt → ℕ)) := do
  getAttr names "calc_traj_time"
  let _ ← trajTime
  getAttr names "calc_refl_phase_time"
  let per ← phaseTime
  let first := fun j => Exits.firstEvent tir j
  let refl_inf := fun j => if ri j = 0 then nev * 10 else ri j
  let idx := fun j => if first j > refl_inf j then 0 else first j
  return (per, fun j => if idx j ≠ 0 then ri j else 0)

end
end Verif.Deprecated
