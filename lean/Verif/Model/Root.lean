import Verif.Model.XF

/-!
# Model of /repo/structcol/__init__.py
-/

namespace Verif

/-- Python exceptions raised by the modelled functions. -/
inductive PyErr where
  | valueError
  | keyError
  | indexError
  | typeError
  | attributeError
  | unboundLocalError
  | zeroDivision
  deriving DecidableEq, Repr

namespace Root

noncomputable section
open Classical XF

/-- `refraction`, one array element.
/repo/structcol/__init__.py:68-70
`snell = n_before / n_after * np.sin(angles)`; entries with `abs(snell) > 1` are overwritten by NaN;
`np.arcsin(snell)`. -/
def refraction1 (angle n_before n_after : XF) : XF :=
  let snell := n_before / n_after * XF.sin angle
  let snell := if (fin 1 : XF) < XF.abs snell then nan else snell
  XF.arcsin snell

/-- `refraction` on an array. /repo/structcol/__init__.py:54-70.
Simplification: the in-place masked store `snell[abs(snell) > 1] = nan` fails for a plain Python float argument
(a float is not subscriptable); the model is of the array call. -/
def refraction {n : ℕ} (angles : Fin n → XF) (n_before n_after : XF) : Fin n → XF :=
  fun i => refraction1 (angles i) n_before n_after

/-- `magnitude` in `normalize`. /repo/structcol/__init__.py:90
`np.sqrt(np.abs(x)**2 + np.abs(y)**2 + np.abs(z)**2)` (`a ** 2` is modelled as `a * a`). -/
def magnitude (x y z : XF) : XF :=
  XF.sqrt (XF.abs x * XF.abs x + XF.abs y * XF.abs y + XF.abs z * XF.abs z)

/-- `magnitude.all() == 0` in `normalize`: `all()` is the conjunction of the entries' truth values (NaN is truthy),
so the comparison with 0 is true when some entry is zero. /repo/structcol/__init__.py:95 -/
def allEqZero {n : ℕ} (m : Fin n → XF) : Prop := ¬ ∀ i, m i ≠ fin 0

/-- `normalize`. /repo/structcol/__init__.py:73-97.  Returns the three component arrays. -/
def normalize {n : ℕ} (x y z : Fin n → XF) (return_nan : Bool := true) :
    (Fin n → XF) × (Fin n → XF) × (Fin n → XF) :=
  let m : Fin n → XF := fun i => magnitude (x i) (y i) (z i)
  let m' : Fin n → XF :=
    if (!return_nan) = true ∧ allEqZero m then fun i => if m i = fin 0 then fin 1 else m i else m
  (fun i => x i / m' i, fun i => y i / m' i, fun i => z i / m' i)

/-- `select_events`, 2D input. /repo/structcol/__init__.py:100-150.
`inarray` has `r` rows (events) and `c` columns (trajectories); `events` has length `m`.
`valid_events = events > 0`; `ev = events[valid] - 1`; `outarray[valid] = inarray[ev, tr]`, zero elsewhere.
An out-of-range index is NumPy's IndexError.  Event numbers are integers (the `.astype(int)` of an integral float). -/
def selectEvents2 {α : Type} [Zero α] {r c m : ℕ} (inarray : Fin r → Fin c → α) (events : Fin m → ℤ) :
    Except PyErr (Fin m → α) :=
  if h : ∀ j : Fin m, 0 < events j → (events j - 1).toNat < r ∧ j.val < c then
    .ok fun j =>
      if hj : 0 < events j then inarray ⟨(events j - 1).toNat, (h j hj).1⟩ ⟨j.val, (h j hj).2⟩ else 0
  else .error .indexError

/-- `select_events`, 3D input (coordinates, events, trajectories). /repo/structcol/__init__.py:142-144 -/
def selectEvents3 {α : Type} [Zero α] {d r c m : ℕ} (inarray : Fin d → Fin r → Fin c → α)
    (events : Fin m → ℤ) : Except PyErr (Fin d → Fin m → α) :=
  if h : ∀ j : Fin m, 0 < events j → (events j - 1).toNat < r ∧ j.val < c then
    .ok fun k j =>
      if hj : 0 < events j then inarray k ⟨(events j - 1).toNat, (h j hj).1⟩ ⟨j.val, (h j hj).2⟩ else 0
  else .error .indexError

/-- `select_events` on in-range event numbers, as used by the models of the functions that call it.
`selectEvents2_eq_sel` (Verif/Lemmas/Root.lean) shows that it agrees with `selectEvents2` whenever no
IndexError is raised. /repo/structcol/__init__.py:100-150 -/
def sel {α : Type} [Zero α] {r c : ℕ} (inarray : Fin r → Fin c → α) (events : Fin c → ℕ) : Fin c → α :=
  fun j => if h : 0 < events j ∧ events j - 1 < r then inarray ⟨events j - 1, h.2⟩ j else 0

end
end Root
end Verif
