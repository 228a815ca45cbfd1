import Mathlib.Data.Nat.Basic
import Mathlib.Data.List.Basic
import Mathlib.Tactic.Linarith

/-!
# Memory model: which NumPy arrays the functions write to

NumPy arrays are mutable and shared by reference.  This file models only allocation, aliasing and in-place writes of
`calc_refl_trans`, `run_sphere_fresnel_traj` (/repo/structcol/detector.py) and `calc_pdf`
(/repo/structcol/phase_func_sphere.py); the numbers that are written are arbitrary functions of the arrays read.
-/

namespace Verif.Heap

/-- Memory: locations below `next` are allocated; `val` is the array stored at a location. -/
structure Heap (A : Type) where
  next : ℕ
  val : ℕ → A

variable {A : Type}

/-- allocate a new array -/
def Heap.alloc (h : Heap A) (a : A) : Heap A × ℕ :=
  (⟨h.next + 1, fun l => if l = h.next then a else h.val l⟩, h.next)

/-- in-place write `array[...] = ...` -/
def Heap.write (h : Heap A) (l : ℕ) (a : A) : Heap A := ⟨h.next, fun l' => if l' = l then a else h.val l'⟩

/-- A `Trajectory` object: references to its three arrays. /repo/structcol/montecarlo.py:160-163 -/
structure Traj where
  position : ℕ
  direction : ℕ
  weight : ℕ

/-- `copy.deepcopy(trajectories)`: three new arrays with the same contents. /repo/structcol/detector.py:635 -/
def deepcopy (h : Heap A) (t : Traj) : Heap A × Traj :=
  let (h, p) := h.alloc (h.val t.position)
  let (h, d) := h.alloc (h.val t.direction)
  let (h, w) := h.alloc (h.val t.weight)
  (h, ⟨p, d, w⟩)

/-- `trajectories.position = trajectories.position.to('um').magnitude` (only done for a Quantity).  `.magnitude` returns
the array itself; `.to` returns a converted copy, or the same array when the units already agree.  Both are possible:
`conv = none` keeps the reference, `some f` allocates the converted array.
/repo/structcol/detector.py:638-639 -/
def convert (h : Heap A) (l : ℕ) (conv : Option (A → A)) : Heap A × ℕ :=
  match conv with
  | none => (h, l)
  | some f => h.alloc (f (h.val l))

/-- `set_up_values`. /repo/structcol/detector.py:603-648 -/
def setUpValues (h : Heap A) (t : Traj) (conv : Option (A → A)) : Heap A × Traj :=
  let (h, t) := deepcopy h t
  let (h, p) := convert h t.position conv
  (h, ⟨p, t.direction, t.weight⟩)

/-- `shift_traj_tir`: overwrites the z rows of the position and direction arrays of the object it is given (`f`, `g` are
the new contents). /repo/structcol/detector.py:1606-1620 -/
def shiftTrajTir (h : Heap A) (t : Traj) (f g : A → A) : Heap A :=
  let h := h.write t.position (f (h.val t.position))
  h.write t.direction (g (h.val t.direction))

/-- Temporaries: `select_events` allocates a new array (/repo/structcol/__init__.py:133-150); `inf_to_large`
(/repo/structcol/detector.py:77-87) and `calc_refracted_direction` (/repo/structcol/detector.py:1396-1397) then write into
such arrays in place.  `src` is the array selected from, `f` the selection, `g` the in-place change. -/
def selectAndModify (h : Heap A) (src : ℕ) (f g : A → A) : Heap A × ℕ :=
  let (h, l) := h.alloc (f (h.val src))
  (h.write l (g (h.val l)), l)

/-- The arbitrary numerical parts of one call of `calc_refl_trans`. -/
structure CallData (A : Type) where
  /-- unit conversion of the positions, if it copies -/
  conv : Option (A → A)
  /-- the goniometer flag `detector` and what `shift_traj_tir` writes -/
  detector : Bool
  tirZ : A → A
  tirK : A → A
  /-- temporaries made from the position and direction arrays, and their in-place modification -/
  posTemps : List ((A → A) × (A → A))
  dirTemps : List ((A → A) × (A → A))
  /-- unit conversion in `run_sphere_fresnel_traj` -/
  conv' : Option (A → A)
  /-- new arrays of `trajectories_fresnel`, before and after the in-place `scatter` and `move` -/
  newPos : A
  newDir : A
  newWeight : A
  scatter : A → A

/-- all temporaries taken from one array -/
def temps (h : Heap A) (src : ℕ) : List ((A → A) × (A → A)) → Heap A
  | [] => h
  | (f, g) :: l => temps (selectAndModify h src f g).1 src l

/-- Memory effects of `calc_refl_trans(trajectories, ...)`; the list gives the data of this call and of the nested calls made
by `run_sphere_fresnel_traj` (one call per element; the nested call gets the new `trajectories_fresnel`).
/repo/structcol/detector.py:1787-1960, 2054-2187 -/
def calcReflTrans (h : Heap A) (t : Traj) : List (CallData A) → Heap A
  | [] => h
  | c :: rest =>
    -- set_up_values
    let s := setUpValues h t c.conv
    let h := s.1
    let t := s.2
    -- find_valid_exits, get_angles, ...: temporaries only
    let h := temps h t.position c.posTemps
    -- goniometer: shift_traj_tir works on the copy
    let h := if c.detector then shiftTrajTir h t c.tirZ c.tirK else h
    let h := temps h t.direction c.dirTemps
    match rest with
    | [] => h
    | rest =>
      -- run_sphere_fresnel_traj
      let s := setUpValues h t c.conv'
      let h := temps s.1 s.2.position c.posTemps
      let a := h.alloc c.newPos
      let b := a.1.alloc c.newDir
      let w := b.1.alloc c.newWeight
      -- absorb replaces the weight reference by a new array; scatter writes into the direction array in place;
      -- move replaces the position reference (/repo/structcol/montecarlo.py:187-189, 209-237, 413-439)
      let h := w.1.write b.2 (c.scatter (w.1.val b.2))
      calcReflTrans h ⟨a.2, b.2, w.2⟩ rest

/-- `calc_pdf` up to the kernel density estimate: `trans_indices_scat` is a copy, but `refl_indices` is the caller's array
and is overwritten in place (`refl_indices[refl_indices != 0] = 1`).
/repo/structcol/phase_func_sphere.py:161-162, 176-177, 196-197 -/
def calcPdf {n : ℕ} (h : Heap (Fin n → ℕ)) (refl_indices trans_indices : ℕ) : Heap (Fin n → ℕ) :=
  let s := h.alloc (h.val trans_indices)
  let h := s.1
  let trans_scat := s.2
  let h := h.write trans_scat (fun j => if h.val trans_indices j = 1 then 0 else h.val trans_scat j)
  let h := h.write refl_indices (fun j => if h.val refl_indices j ≠ 0 then 1 else h.val refl_indices j)
  h.write trans_scat (fun j => if h.val trans_scat j ≠ 0 then 1 else h.val trans_scat j)

end Verif.Heap
