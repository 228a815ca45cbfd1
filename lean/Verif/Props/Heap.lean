import Verif.Model.Heap
import Mathlib.Data.Fintype.Basic
import Mathlib.Data.Fin.VecNotation
import Mathlib.Tactic.FinCases

/-!
# C30 and C65: the caller's arrays
-/

namespace Verif.Props
open Verif.Heap

variable {A : Type}

/-- nothing below `b` changes and nothing is deallocated -/
def Frame (b : ℕ) (h h' : Heap A) : Prop := h.next ≤ h'.next ∧ ∀ l, l < b → h'.val l = h.val l

theorem Frame.refl (b : ℕ) (h : Heap A) : Frame b h h := ⟨le_rfl, fun _ _ => rfl⟩

theorem Frame.trans {b : ℕ} {h1 h2 h3 : Heap A} (a : Frame b h1 h2) (c : Frame b h2 h3) : Frame b h1 h3 :=
  ⟨a.1.trans c.1, fun l hl => (c.2 l hl).trans (a.2 l hl)⟩

theorem frame_alloc {b : ℕ} {h : Heap A} (hb : b ≤ h.next) (a : A) : Frame b h (h.alloc a).1 :=
  ⟨Nat.le_succ _, fun l hl => if_neg (show l ≠ h.next by omega)⟩

theorem frame_write {b : ℕ} {h : Heap A} {l : ℕ} (hl : b ≤ l) (a : A) : Frame b h (h.write l a) :=
  ⟨le_rfl, fun l' hl' => if_neg (show l' ≠ l by omega)⟩

theorem frame_select {b : ℕ} {h : Heap A} (hb : b ≤ h.next) (src : ℕ) (f g : A → A) :
    Frame b h (selectAndModify h src f g).1 :=
  (frame_alloc hb _).trans (frame_write hb _)

theorem frame_temps {b : ℕ} (l : List ((A → A) × (A → A))) : ∀ {h : Heap A}, b ≤ h.next → ∀ src, Frame b h (temps h src l) := by
  induction l with
  | nil => intro h _ _; exact Frame.refl _ _
  | cons x l ih =>
    intro h hb src
    obtain ⟨f, g⟩ := x
    have h1 := frame_select hb src f g
    exact h1.trans (ih (hb.trans h1.1) src)

theorem frame_setUp {b : ℕ} {h : Heap A} (hb : b ≤ h.next) (t : Traj) (conv : Option (A → A)) :
    Frame b h (setUpValues h t conv).1 ∧ b ≤ (setUpValues h t conv).2.position ∧
      b ≤ (setUpValues h t conv).2.direction ∧ b ≤ (setUpValues h t conv).2.weight := by
  have h1 := frame_alloc hb (h.val t.position)
  have h2 := frame_alloc (hb.trans h1.1) ((h.alloc (h.val t.position)).1.val t.direction)
  have h3 := frame_alloc (hb.trans (h1.trans h2).1)
    (((h.alloc (h.val t.position)).1.alloc ((h.alloc (h.val t.position)).1.val t.direction)).1.val t.weight)
  have hcopy : Frame b h (deepcopy h t).1 := (h1.trans h2).trans h3
  have hpos : b ≤ (deepcopy h t).2.position := hb
  have hdir : b ≤ (deepcopy h t).2.direction := hb.trans h1.1
  have hwt : b ≤ (deepcopy h t).2.weight := hb.trans (h1.trans h2).1
  cases conv with
  | none => exact ⟨hcopy, hpos, hdir, hwt⟩
  | some f =>
    refine ⟨hcopy.trans (frame_alloc (hb.trans hcopy.1) _), ?_, hdir, hwt⟩
    exact hb.trans hcopy.1

/-- the part of a call that sets up and makes the nested call -/
theorem frame_rerun {b : ℕ} {h h4 : Heap A} {t : Traj} {c : CallData A} {rest : List (CallData A)}
    (ih : ∀ {h : Heap A}, b ≤ h.next → ∀ t, Frame b h (calcReflTrans h t rest)) (f4 : Frame b h h4) (hb : b ≤ h.next) :
    Frame b h (
      let s := setUpValues h4 t c.conv'
      let h := temps s.1 s.2.position c.posTemps
      let a := h.alloc c.newPos
      let b := a.1.alloc c.newDir
      let w := b.1.alloc c.newWeight
      let h := w.1.write b.2 (c.scatter (w.1.val b.2))
      calcReflTrans h ⟨a.2, b.2, w.2⟩ rest) := by
  obtain ⟨g1, -, -, -⟩ := frame_setUp (hb.trans f4.1) t c.conv'
  have g1' := f4.trans g1
  have g2 := g1'.trans (frame_temps c.posTemps (hb.trans g1'.1) (setUpValues h4 t c.conv').2.position)
  have g3 := g2.trans (frame_alloc (hb.trans g2.1) c.newPos)
  have g4 := g3.trans (frame_alloc (hb.trans g3.1) c.newDir)
  have g5 := g4.trans (frame_alloc (hb.trans g4.1) c.newWeight)
  have g6 := fun x => g5.trans (frame_write (hb.trans g3.1) (c.scatter x))
  exact (g6 _).trans (ih (hb.trans (g6 _).1) _)

theorem frame_calc {b : ℕ} (cs : List (CallData A)) : ∀ {h : Heap A}, b ≤ h.next → ∀ t, Frame b h (calcReflTrans h t cs) := by
  induction cs with
  | nil => intro h _ _; exact Frame.refl _ _
  | cons c rest ih =>
    intro h hb t
    obtain ⟨f1, hp, hd, -⟩ := frame_setUp hb t c.conv
    have f2 := frame_temps c.posTemps (hb.trans f1.1) (setUpValues h t c.conv).2.position
    have f12 := f1.trans f2
    have f3 : Frame b h (if c.detector then shiftTrajTir (temps (setUpValues h t c.conv).1 (setUpValues h t c.conv).2.position
        c.posTemps) (setUpValues h t c.conv).2 c.tirZ c.tirK else temps (setUpValues h t c.conv).1
        (setUpValues h t c.conv).2.position c.posTemps) := by
      split
      · exact f12.trans ((frame_write hp _).trans (frame_write hd _))
      · exact f12
    have f4 := f3.trans (frame_temps c.dirTemps (hb.trans f3.1) (setUpValues h t c.conv).2.direction)
    cases rest with
    | nil => exact f4
    | cons c2 rest2 =>
      rw [calcReflTrans]
      case x_1 => exact fun h => nomatch h
      exact frame_rerun ih f4 hb

/-- C30.  Whatever numbers the call computes, in goniometer mode or not, with positions whose unit conversion copies or not,
and through any number of nested re-runs: every array that existed before `calc_refl_trans` was called, in particular the
position, direction and weight arrays of the caller's Trajectory object, has the same contents afterwards. -/
theorem C30_caller_arrays_unchanged (h : Heap A) (t : Traj) (calls : List (CallData A))
    (hp : t.position < h.next) (hd : t.direction < h.next) (hw : t.weight < h.next) :
    (∀ l, l < h.next → (calcReflTrans h t calls).val l = h.val l) ∧
    (calcReflTrans h t calls).val t.position = h.val t.position ∧
    (calcReflTrans h t calls).val t.direction = h.val t.direction ∧
    (calcReflTrans h t calls).val t.weight = h.val t.weight := by
  have f := (frame_calc calls (h := h) le_rfl t).2
  exact ⟨f, f _ hp, f _ hd, f _ hw⟩

/-- Non-vacuity of C30: a call in goniometer mode does write (to its copies), and the caller's array keeps its value. -/
example :
    let h : Heap ℕ := ⟨3, fun l => l + 10⟩
    let c : CallData ℕ := ⟨none, true, fun a => a + 1000, fun a => a + 1000, [], [], none, 0, 0, 0, id⟩
    (calcReflTrans h ⟨0, 1, 2⟩ [c]).val 0 = 10 ∧ (calcReflTrans h ⟨0, 1, 2⟩ [c]).val 3 = 1010 := by
  constructor <;> rfl

/-- C65 is false of the code: after `calc_pdf` the caller's `refl_indices` hold 1 wherever they held an event number; an
array containing an exit at event 2 or later is changed. -/
theorem C65_calc_pdf_mutates_refuted {n : ℕ} (h : Heap (Fin n → ℕ)) (ri ti : ℕ) (hr : ri < h.next) (j : Fin n) :
    (calcPdf h ri ti).val ri j = if h.val ri j = 0 then 0 else 1 := by
  have hne : ri ≠ h.next := by omega
  simp only [calcPdf, Heap.alloc, Heap.write, hne, if_false, if_true, ne_eq]
  by_cases h0 : h.val ri j = 0 <;> simp [h0]

theorem C65_calc_pdf_witness_refuted :
    ∃ (h : Heap (Fin 1 → ℕ)), (calcPdf h 0 1).val 0 ≠ h.val 0 := by
  refine ⟨⟨2, fun _ _ => 2⟩, ?_⟩
  intro he
  have := congrFun he 0
  rw [C65_calc_pdf_mutates_refuted _ 0 1 (by norm_num)] at this
  simp at this

/-- C65, the part that holds: no other existing array (in particular `trans_indices`, if it is a different array) is changed. -/
theorem C65_calc_pdf_others_partial {n : ℕ} (h : Heap (Fin n → ℕ)) (ri ti : ℕ) (_hr : ri < h.next) (l : ℕ)
    (hl : l < h.next) (hne : l ≠ ri) : (calcPdf h ri ti).val l = h.val l := by
  have h1 : l ≠ h.next := by omega
  simp only [calcPdf, Heap.alloc, Heap.write, h1, hne, if_false]

/-- Non-vacuity of C65: two trajectories, the second reflected at its third event; after the call its event number reads 1, and the
array of transmitted events is as before. -/
example : let h : Heap (Fin 2 → ℕ) := ⟨2, fun l => if l = 0 then ![0, 3] else ![5, 0]⟩
    (calcPdf h 0 1).val 0 = ![0, 1] ∧ (calcPdf h 0 1).val 1 = ![5, 0] := by
  intro h
  constructor
  · funext j
    rw [C65_calc_pdf_mutates_refuted h 0 1 (by simp [h]) j]
    fin_cases j <;> simp [h]
  · rw [C65_calc_pdf_others_partial h 0 1 (by simp [h]) 1 (by simp [h]) (by simp)]
    simp [h]

end Verif.Props
