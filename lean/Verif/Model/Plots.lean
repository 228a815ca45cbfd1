import Verif.Model.XF
import Verif.Model.Root
import Mathlib.Algebra.BigOperators.Fin

/-!
# What the event plots draw, and where `save_data` writes

`structcol/event_distribution.py` 656-851.  A plot is modelled by the curves it hands to `plt.plot` (y-values over the wavelength
axis or over the event axis); styles, labels and limits are not modelled.  The file system is a partial map from file names.
-/

namespace Verif.Plots
open XF

/-- An integer index into an axis of length `n`: `a[i]` with numpy's wrap-around of negative indices (event_distribution.py:677, 704,
756: `refl_events[:, event[ev]]`). -/
def axisIndex (n : ℕ) (i : ℤ) : Except PyErr (Fin n) :=
  if h : 0 ≤ i ∧ i < n then .ok ⟨i.toNat, by omega⟩
  else if h : i < 0 ∧ -(n : ℤ) ≤ i then .ok ⟨(n + i).toNat, by omega⟩
  else .error .indexError

/-- `plt.plot(x, y)`: the two arrays must have the same length (event_distribution.py:676, 702, 728, 761); the curve is `y`. -/
def plot {nw : ℕ} (nx : ℕ) (y : Fin nw → XF) : Except PyErr (Fin nw → XF) :=
  if nx = nw then .ok y else .error .valueError

/-- the curves are drawn one after the other (`for ev in range(0, len(event))`, event_distribution.py:675, 700), then
`plt.xlim(wavelengths[0], wavelengths[-1])` needs a non-empty axis (:679, :707) -/
def curves {nw : ℕ} (nx : ℕ) (one : ℤ → Except PyErr (Fin nw → XF)) (events : List ℤ) : Except PyErr (List (Fin nw → XF)) :=
  match events.mapM (fun ev => (one ev).bind (plot nx)) with
  | .error e => .error e
  | .ok l => if nx = 0 then .error .indexError else .ok l

/-- `plot_refl_event` (event_distribution.py:656-682): the column of each event. -/
def reflEvent {nw ne : ℕ} (nx : ℕ) (R : Fin nw → Fin ne → XF) (events : List ℤ) : Except PyErr (List (Fin nw → XF)) :=
  curves nx (fun ev => (axisIndex ne ev).map fun e w => R w e) events

/-- `1 - np.sum(refl_events[:, np.arange(0, ev)], axis=1)` (event_distribution.py:701-704, 755-758): `np.arange(0, ev)` is empty for a
negative `ev`. -/
def remaining {nw ne : ℕ} (R : Fin nw → Fin ne → XF) (ev : ℤ) (w : Fin nw) : XF :=
  fin 1 - ∑ e ∈ Finset.univ.filter (fun e : Fin ne => ((e : ℕ) : ℤ) < ev), R w e

/-- one normalised column: `refl_events[:, ev] / (1 - sum of the columns before)` (event_distribution.py:701-704, 755-758). -/
noncomputable def normColumn {nw ne : ℕ} (R : Fin nw → Fin ne → XF) (ev : ℤ) : Except PyErr (Fin nw → XF) :=
  (axisIndex ne ev).map fun e w => R w e / remaining R ev w

/-- `plot_refl_event_norm` (event_distribution.py:684-710). -/
noncomputable def reflEventNorm {nw ne : ℕ} (nx : ℕ) (R : Fin nw → Fin ne → XF) (events : List ℤ) :
    Except PyErr (List (Fin nw → XF)) :=
  curves nx (normColumn R) events

/-- `plot_refl_event_sum` (event_distribution.py:712-734): one curve, the sum of the columns. -/
def reflEventSum {nw ne : ℕ} (nx : ℕ) (R : Fin nw → Fin ne → XF) (events : List ℤ) : Except PyErr (Fin nw → XF) :=
  match events.mapM (axisIndex ne) with
  | .error e => .error e
  | .ok l =>
    match plot nx (fun w => (l.map (R w)).sum) with
    | .error e => .error e
    | .ok y => if nx = 0 then .error .indexError else .ok y

/-- `plot_refl_event_sum_norm` (event_distribution.py:736-766): one curve, the sum of the normalised columns.  The array that collects
them has one row per wavelength, so a mismatch with the rows of `refl_events` is an error before plotting; the broadcast of a single row
is not modelled (`nw = 1` with several wavelengths is reported as an error too). -/
noncomputable def reflEventSumNorm {nw ne : ℕ} (nx : ℕ) (R : Fin nw → Fin ne → XF) (events : List ℤ) : Except PyErr (Fin nw → XF) :=
  match events.mapM (normColumn R) with
  | .error e => .error e
  | .ok l =>
    match plot nx (fun w => (l.map (fun c => c w)).sum) with
    | .error e => .error e
    | .ok y => if nx = 0 then .error .indexError else .ok y

/-- `np.where(wavelengths == wavelength[wl])[0][0]` (event_distribution.py:787, 798, 809): the first position of the value. -/
noncomputable def findWavelength (wavelengths : List ℝ) (wl : ℝ) : Except PyErr ℕ :=
  open Classical in
  if wl ∈ wavelengths then .ok (wavelengths.findIdx (fun x => decide (x = wl))) else .error .indexError

/-- `plot_refl_dist` (event_distribution.py:768-816) for one wavelength: the row divided by its sum (figures one and two) and the row
itself (figure three), drawn against `events - 1`. -/
noncomputable def reflDist {nw ne : ℕ} (wavelengths : List ℝ) (R : Fin nw → Fin ne → XF) (wl : ℝ) :
    Except PyErr ((Fin ne → ℤ) × (Fin ne → XF) × (Fin ne → XF)) :=
  match findWavelength wavelengths wl with
  | .error e => .error e
  | .ok i =>
    if h : i < nw then
      .ok (fun e => (e : ℤ) - 1, fun e => R ⟨i, h⟩ e / ∑ e', R ⟨i, h⟩ e', R ⟨i, h⟩)
    else .error .indexError

/-! ## `save_data` -/

/-- a parameter of `save_data`: an `sc.Quantity` or a plain number (which has no attribute `magnitude`) -/
inductive Val where
  /-- `sc.Quantity(magnitude, unit)` -/
  | quantity (magnitude : ℚ) (unit : String)
  /-- a plain `float` or `int` -/
  | plain (x : ℚ)

/-- `x.magnitude` (event_distribution.py:832-834). -/
def Val.magnitude : Val → Except PyErr ℚ
  | .quantity m _ => .ok m
  | .plain _ => .error .attributeError

/-- Python's `str` of an integer and of a number; uninterpreted (event_distribution.py:830-835). -/
structure Str where
  int : ℕ → List Char
  num : ℚ → List Char

/-- the arguments of `save_data` that enter the file name (event_distribution.py:818-823), and everything it stores (`data`) -/
structure SaveArgs (α : Type) where
  particle : List Char
  matrix : List Char
  particle_radius : Val
  volume_fraction : Val
  thickness : Val
  /-- `wavelengths`, a `Quantity` array: magnitudes and unit -/
  wavelengths : List ℚ × String
  nevents : ℕ
  ntrajectories : ℕ
  /-- the arrays handed to `np.savez` -/
  data : α

/-- the file name built from the already rendered parts (event_distribution.py:828-835) -/
def nameOf (particle matrix ntraj nevent rad vf thick numwl : List Char) : List Char :=
  particle ++ "_in_".toList ++ matrix ++ "_ntraj".toList ++ ntraj ++ "_nevent".toList ++ nevent ++ "_rad".toList ++ rad ++
    "_vf".toList ++ vf ++ "_thick".toList ++ thick ++ "_numwl".toList ++ numwl

/-- the file name of a call, with the `.npz` that `np.savez` appends (event_distribution.py:828-837) -/
def fileName {α : Type} (S : Str) (a : SaveArgs α) : Except PyErr (List Char) :=
  match a.particle_radius.magnitude, a.volume_fraction.magnitude, a.thickness.magnitude with
  | .ok r, .ok v, .ok t =>
    .ok (nameOf a.particle a.matrix (S.int a.ntrajectories) (S.int a.nevents) (S.num r) (S.num v) (S.num t)
      (S.int a.wavelengths.1.length) ++ ".npz".toList)
  | .error e, _, _ => .error e
  | _, .error e, _ => .error e
  | _, _, .error e => .error e

/-- `save_data` (event_distribution.py:818-851): writes the arrays under that name, replacing what was there. -/
def save {α : Type} (S : Str) (fs : List Char → Option α) (a : SaveArgs α) : Except PyErr (List Char → Option α) :=
  (fileName S a).map fun n m => if m = n then some a.data else fs m

end Verif.Plots
