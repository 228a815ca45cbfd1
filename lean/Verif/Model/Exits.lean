import Verif.Model.Root
import Mathlib.Algebra.Order.Floor.Ring
import Mathlib.Data.List.OfFn

/-!
# Model of `find_valid_exits` and `find_event_indices`
/repo/structcol/detector.py:651-822

A table over events and trajectories is a function `Fin nev → Fin nt → Bool`; row `e` is event number `e+1`.
-/

namespace Verif.Exits
noncomputable section
open Classical XF Root

/-- `np.argmax` of a 1-d array of non-negative numbers: the first index at which the maximum is attained.
Used at /repo/structcol/detector.py:733-734, 798-799, 819. -/
def argmax (l : List ℕ) : ℕ := l.idxOf (l.foldl max 0)

/-- `np.argmax(np.vstack([np.zeros(ntraj), table]), axis=0)` for one trajectory.
/repo/structcol/detector.py:798 -/
def firstEvent {nev nt : ℕ} (table : Fin nev → Fin nt → Bool) (j : Fin nt) : ℕ :=
  argmax (0 :: List.ofFn (fun e => (table e j).toNat))

/-- `refl_indices`. /repo/structcol/detector.py:798-816 -/
def reflIndices {nev nt : ℕ} (neg pos : Fin nev → Fin nt → Bool) (j : Fin nt) : ℕ :=
  let low_event := firstEvent neg j
  let high_event := firstEvent pos j
  let no_high_exit := decide (high_event = 0)
  let low_smaller := decide (low_event < high_event)
  let low_first := no_high_exit || low_smaller
  low_event * low_first.toNat

/-- `trans_indices`. /repo/structcol/detector.py:798-817 -/
def transIndices {nev nt : ℕ} (neg pos : Fin nev → Fin nt → Bool) (j : Fin nt) : ℕ :=
  let low_event := firstEvent neg j
  let high_event := firstEvent pos j
  let no_low_exit := decide (low_event = 0)
  let low_smaller := decide (low_event < high_event)
  let high_first := no_low_exit || !low_smaller
  high_event * high_first.toNat

/-- `stuck_indices`. /repo/structcol/detector.py:802-818 -/
def stuckIndices {nev nt : ℕ} (neg pos : Fin nev → Fin nt → Bool) (j : Fin nt) : ℕ :=
  let no_low_exit := decide (firstEvent neg j = 0)
  let no_high_exit := decide (firstEvent pos j = 0)
  let never_exit := no_low_exit && no_high_exit
  never_exit.toNat * nev

/-- `find_event_indices(exits_neg_dir, exits_pos_dir, tir_refl_bool)`; returns
`(refl_indices, trans_indices, stuck_indices, tir_indices)`. /repo/structcol/detector.py:760-822 -/
def findEventIndices {nev nt : ℕ} (neg pos tir : Fin nev → Fin nt → Bool) :
    (Fin nt → ℕ) × (Fin nt → ℕ) × (Fin nt → ℕ) × (Fin nt → ℕ) :=
  (reflIndices neg pos, transIndices neg pos, stuckIndices neg pos, firstEvent tir)

/-- The three tables returned by `find_valid_exits`. -/
structure ExitTables (nev nt : ℕ) where
  pos : Fin nev → Fin nt → Bool
  neg : Fin nev → Fin nt → Bool
  tir : Fin nev → Fin nt → Bool

/-- `np.floor((z - z_low) / (thickness - z_low))` for one position. /repo/structcol/detector.py:695
Simplification: finite positions (a real number), `thickness ≠ z_low`. -/
def zFloor (thickness z_low z : ℝ) : ℤ := ⌊(z - z_low) / (thickness - z_low)⌋

/-- `no_tir = abs(kz) > np.cos(np.arcsin(n_medium / n_sample))`; NaN on the right makes it False.
/repo/structcol/detector.py:702 -/
def noTirFilm (n_sample n_medium kz : ℝ) : Bool :=
  decide (XF.cos (XF.arcsin (fin n_medium / fin n_sample)) < fin |kz|)

/-- `pos_dir = np.mod(z_floors[:-1] + 1 * (z_floors[1:] > z_floors[:-1]), 2).astype(bool)`.
/repo/structcol/detector.py:706-707 -/
def posDir (f0 f1 : ℤ) : Bool := decide ((f0 + if f1 > f0 then 1 else 0) % 2 ≠ 0)

/-- `find_valid_exits` for `boundary == 'film'`.  `z` has one row more than `kz` (positions before the first and after
every event). /repo/structcol/detector.py:688-715 -/
def findValidExitsFilm {nev nt : ℕ} (n_sample n_medium thickness z_low : ℝ)
    (z : Fin (nev + 1) → Fin nt → ℝ) (kz : Fin nev → Fin nt → ℝ) : ExitTables nev nt :=
  let zf := fun e j => zFloor thickness z_low (z e j)
  let potential : Fin nev → Fin nt → Bool := fun e j => !decide (zf e.succ j - zf e.castSucc j = 0)
  let no_tir := fun e j => noTirFilm n_sample n_medium (kz e j)
  let pos_dir := fun e j => posDir (zf e.castSucc j) (zf e.succ j)
  { pos := fun e j => potential e j && no_tir e j && pos_dir e j
    neg := fun e j => potential e j && no_tir e j && !pos_dir e j
    tir := fun e j => potential e j && !no_tir e j && !pos_dir e j }

/-- `potential_exits` for `boundary == 'sphere'`: outside the sphere after the event.
/repo/structcol/detector.py:731-732 -/
def potentialSphere {nev nt : ℕ} (thickness : ℝ) (x y z : Fin (nev + 1) → Fin nt → ℝ)
    (e : Fin nev) (j : Fin nt) : Bool :=
  decide ((thickness / 2) ^ 2 < x e.succ j ^ 2 + y e.succ j ^ 2 + (z e.succ j - thickness / 2) ^ 2)

/-- `find_valid_exits` for `boundary == 'sphere'`, after `kz_correct = exit_kz(...)` (modelled in
Verif/Model/Geometry.lean) has been computed for the first potential exit of each trajectory.
/repo/structcol/detector.py:717-757 -/
def findValidExitsSphere {nev nt : ℕ} (thickness : ℝ) (x y z : Fin (nev + 1) → Fin nt → ℝ)
    (kz_correct : Fin nt → XF) : ExitTables nev nt :=
  let potential := potentialSphere thickness x y z
  let no_tir := fun j => !decide (XF.isNaN (kz_correct j))
  let pos_dir := fun j => decide ((fin 0 : XF) < kz_correct j)
  let neg_dir := fun j => decide (kz_correct j < (fin 0 : XF))
  { pos := fun e j => potential e j && pos_dir j
    neg := fun e j => potential e j && neg_dir j
    tir := fun e j => potential e j && !no_tir j }

end
end Verif.Exits
