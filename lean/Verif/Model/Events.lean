import Verif.Model.Traj
import Verif.Model.Weights

/-!
# Model of /repo/structcol/event_distribution.py

Per-trajectory arrays are functions on `Fin nt`; arrays over event numbers are functions on `ℕ` of which only the entries
below the array's length are meaningful.  Stores that may fall outside the array are checked.
-/

namespace Verif.Events

noncomputable section
open Classical XF

variable {nt : ℕ}

/-- `np.sum(a[np.where(idx == ev)[0]])`: the sum over the trajectories whose index is `ev`.
/repo/structcol/event_distribution.py:60-66 -/
def sumAt {α : Type} [AddCommMonoid α] (a : Fin nt → α) (idx : Fin nt → ℕ) (ev : ℕ) : α := ∑ j with idx j = ev, a j

/-- `hist[i] += x` for an array over events -/
def addAt {α : Type} [Add α] (hist : ℕ → α) (i : ℕ) (x : α) : ℕ → α := Function.update hist i (hist i + x)

/-- `calc_refl_trans_event`. /repo/structcol/event_distribution.py:15-68.  Both arrays have length `2 * nevents + 1`; the
stores are at `ev ≤ nevents`, inside the arrays. -/
def calcReflTransEvent (reflPer incPer transPer : Fin nt → ℝ) (ri ti : Fin nt → ℕ) (nevents : ℕ) :
    (ℕ → ℝ) × (ℕ → ℝ) :=
  (List.range' 1 nevents).foldl
    (fun s ev => (addAt s.1 ev (sumAt reflPer ri ev), addAt s.2 ev (sumAt transPer ti ev)))
    (Function.update (fun _ => 0) 0 (∑ j, incPer j), fun _ => 0)

/-- `calc_path_length`, one trajectory: `np.sum(step[:exit_indices[i], i])`; the slice stops at the number of rows `nev`.
/repo/structcol/event_distribution.py:70-96 -/
def calcPathLength (nev : ℕ) (step : ℕ → Fin nt → ℝ) (exit : Fin nt → ℕ) : Fin nt → ℝ :=
  fun j => ∑ e ∈ Finset.range (min (exit j) nev), step e j

/-- `calc_refl_trans_event_traj` for arrays of exactly `ntraj` trajectories (the slices `[0:ntraj]` are the whole arrays).
Every one of the five shortened parameters is taken from `refl_indices`.
/repo/structcol/event_distribution.py:141-167 -/
def calcReflTransEventTraj (_reflPer _incPer _transPer : Fin nt → ℝ) (ri _ti : Fin nt → ℕ) (nevents : ℕ) :
    (ℕ → Fin nt → ℝ) × (ℕ → Fin nt → ℝ) :=
  let reflPer : Fin nt → ℝ := fun j => ri j
  let incPer : Fin nt → ℝ := fun j => ri j
  let transPer : Fin nt → ℝ := fun j => ri j
  let ti := ri
  (List.range' 1 nevents).foldl
    (fun s ev => (Function.update s.1 ev fun j => if ri j = ev then s.1 ev j + sumAt reflPer ri ev else s.1 ev j,
                  Function.update s.2 ev fun j => if ti j = ev then s.2 ev j + sumAt transPer ti ev else s.2 ev j))
    (Function.update (fun _ _ => 0) 0 incPer, fun _ _ => 0)

/-- `calc_thetas_event_traj`, arrays of `ntraj` trajectories: the loop stops before event `nevents`.
/repo/structcol/event_distribution.py:169-211 -/
def calcThetasEventTraj (theta : ℕ → Fin nt → ℝ) (ri : Fin nt → ℕ) (nevents : ℕ) : ℕ → Fin nt → ℝ :=
  (List.range' 1 (nevents - 1)).foldl
    (fun s ev => Function.update s ev fun j => if ri j = ev then theta ev j else s ev j) (fun _ _ => 0)

/-- `tir_indices` after the two masked stores. /repo/structcol/event_distribution.py:295-308 -/
def tirIndices {nev : ℕ} (tir : Fin nev → Fin nt → Bool) (ri ti : Fin nt → ℕ) : Fin nt → ℕ :=
  let first := fun j => Exits.firstEvent tir j
  let refl_inf := fun j => if ri j = 0 then nev * 10 else ri j
  let trans_inf := fun j => if ti j = 0 then nev * 10 else ti j
  let t1 := fun j => if first j > refl_inf j then 0 else first j
  fun j => if t1 j > trans_inf j then 0 else t1 j

/-- the arrays returned by `calc_tir` -/
structure Tir (nt : ℕ) where
  all : ℕ → XF
  allRefl : ℕ → XF
  single : ℕ → XF
  singleRefl : ℕ → XF
  indicesSingle : Fin nt → ℕ

/-- `hist[ev] = np.sum(a[idx == ev])` for `ev in range(1, nevents)`, zero elsewhere.
/repo/structcol/event_distribution.py:363-396 -/
def histogram (a : Fin nt → XF) (idx : Fin nt → ℕ) (nevents : ℕ) : ℕ → XF :=
  (List.range' 1 (nevents - 1)).foldl (fun s ev => addAt s ev (sumAt a idx ev)) (fun _ => fin 0)

/-- `calc_tir` with `phase=False`.  `pass idx` is what `fresnel_pass_frac(idx, n_sample, None, n_medium, boundary,
trajectories, thickness)[0]` returns (`passFilm` below for a film).
/repo/structcol/event_distribution.py:214-412 -/
def calcTir {nev : ℕ} (tir : Fin nev → Fin nt → Bool) (ri ti : Fin nt → ℕ) (inc : Fin nt → XF) (w : Fin nev → Fin nt → XF)
    (pass : (Fin nt → ℕ) → Except PyErr (Fin nt → XF)) : Except PyErr (Tir nt) := do
  let idx := tirIndices tir ri ti
  let all := fun j => (fin 1 - inc j) * Root.sel w idx j / fin nt
  let idxRefl := fun j => if idx j ≠ 0 then ri j else 0
  let passR ← pass idxRefl
  let allRefl := fun j => (fin 1 - inc j) * Root.sel w idxRefl j * passR j / fin nt
  let idxSingle := fun j => if idx j ≠ 2 then 0 else idx j
  let single := fun j => (fin 1 - inc j) * Root.sel w idxSingle j / fin nt
  let idxSingleRefl := fun j => if idxSingle j = 2 then ri j else 0
  let passS ← pass idxSingleRefl
  let singleRefl := fun j => (fin 1 - inc j) * Root.sel w idxSingleRefl j * passS j / fin nt
  return { all := histogram all idx nev
           allRefl := histogram allRefl idxRefl nev
           single := histogram single idxSingle nev
           singleRefl := histogram singleRefl idxSingleRefl nev
           indicesSingle := idxSingle }

/-- `fresnel_pass_frac(indices, n_sample, None, n_medium, 'film', trajectories, thickness)[0]`.
/repo/structcol/detector.py:471-555 -/
def passFilm {nev : ℕ} (n_sample n_medium : ℝ) (kz : Fin nev → Fin nt → ℝ) (idx : Fin nt → ℕ) :
    Except PyErr (Fin nt → XF) :=
  Fresnel.fresnelPassFrac (Weights.getAnglesFilm kz idx) n_sample none n_medium

/-- `a[lo:hi] / np.sum(a[lo:hi])`, entry `lo + i`, `i < hi - lo`. /repo/structcol/event_distribution.py:518-519 -/
def pdfSlice (a : ℕ → ℝ) (lo hi : ℕ) : Fin (hi - lo) → XF :=
  fun i => fin (a (lo + i)) / fin (∑ k : Fin (hi - lo), a (lo + k))

/-- `calc_pdf_scat`. /repo/structcol/event_distribution.py:489-520 -/
def calcPdfScat (reflEvents transEvents : ℕ → ℝ) (nevents : ℕ) :
    (Fin (nevents + 1 - 2) → XF) × (Fin (nevents + 1 - 1) → XF) :=
  (pdfSlice reflEvents 2 (nevents + 1), pdfSlice transEvents 1 (nevents + 1))

/-- a store `hist[i] += x` into an array of length `len`; IndexError outside -/
def addAtChecked (len : ℕ) (hist : ℕ → ℝ) (i : ℕ) (x : ℝ) : Except PyErr (ℕ → ℝ) :=
  if i < len then .ok (addAt hist i x) else .error .indexError

/-- The loop shared by `calc_refl_event_fresnel_pdf` and `calc_refl_event_fresnel_avg`: for each event the light sent back
at the front (back) is added, times `refl_frac` (`trans_frac`), to the entry shifted by `shiftR ev` (`shiftT ev`).
/repo/structcol/event_distribution.py:583-596, 641-653 -/
def fresnelLoop (reflEvents : ℕ → ℝ) (ri ti : Fin nt → ℕ) (reflFresnel transFresnel : Fin nt → ℝ)
    (reflFrac transFrac : ℝ) (nevents : ℕ) (shiftR shiftT : ℕ → ℕ) : Except PyErr (ℕ → ℝ) := do
  let samp ← (List.range' 1 nevents).foldlM (fun s ev => do
    let s ← addAtChecked (2 * nevents + 1) s (ev + shiftR ev) (reflFrac * sumAt reflFresnel ri ev)
    addAtChecked (2 * nevents + 1) s (ev + shiftT ev) (transFrac * sumAt transFresnel ti ev)) (fun _ => 0)
  return fun i => reflEvents i + samp i

/-- `calc_refl_event_fresnel_pdf`.  `drawR ev`, `drawT ev` are the positions chosen by `rng.choice` in `arange(2, nevents+1)`
and `arange(1, nevents+1)`.  NumPy raises ValueError when the probabilities are not a distribution (in particular when a
list is empty). /repo/structcol/event_distribution.py:522-597 -/
def calcReflEventFresnelPdf (reflEvents : ℕ → ℝ) (nevents : ℕ) (pdfR : Fin (nevents + 1 - 2) → XF)
    (pdfT : Fin (nevents + 1 - 1) → XF) (ri ti : Fin nt → ℕ) (reflFresnel transFresnel : Fin nt → ℝ)
    (reflFrac transFrac : ℝ) (drawR : ℕ → Fin (nevents + 1 - 2)) (drawT : ℕ → Fin (nevents + 1 - 1)) :
    Except PyErr (ℕ → ℝ) :=
  if Traj.choiceOk pdfR ∧ Traj.choiceOk pdfT then
    fresnelLoop reflEvents ri ti reflFresnel transFresnel reflFrac transFrac nevents
      (fun ev => 2 + (drawR ev).val) (fun ev => 1 + (drawT ev).val)
  else .error .valueError

/-- `np.round(np.average(idx[idx != 0]))` followed by `int(ev + ·)`: `np.average` of an empty array is NaN and `int(nan)` is
a ValueError. /repo/structcol/event_distribution.py:641-642 -/
def avgEvent (idx : Fin nt → ℕ) : Option ℕ :=
  let s : Finset (Fin nt) := Finset.univ.filter (fun j => idx j ≠ 0)
  if s.card = 0 then none else some (Traj.pyRound ((∑ j ∈ s, (idx j : ℝ)) / s.card)).toNat

/-- `calc_refl_event_fresnel_avg`.  With `nevents = 0` the loop is empty and nothing fails.
/repo/structcol/event_distribution.py:599-654 -/
def calcReflEventFresnelAvg (reflEvents : ℕ → ℝ) (ri ti : Fin nt → ℕ) (reflFresnel transFresnel : Fin nt → ℝ)
    (reflFrac transFrac : ℝ) (nevents : ℕ) : Except PyErr (ℕ → ℝ) :=
  if nevents = 0 then .ok reflEvents else
  match avgEvent ri, avgEvent ti with
  | some r, some t => fresnelLoop reflEvents ri ti reflFresnel transFresnel reflFrac transFrac nevents
      (fun _ => r) (fun _ => t)
  | _, _ => .error .valueError

end
end Verif.Events
