import Verif.Model.Exits
import Verif.Spec
import Mathlib.Data.List.Basic

namespace Verif.Exits
open Classical XF Root Verif.Spec

theorem foldl_max_bool (l : List Bool) (a : ℕ) :
    (l.map Bool.toNat).foldl max a = if true ∈ l then max a 1 else a := by
  induction l generalizing a with
  | nil => simp
  | cons b l ih =>
    simp only [List.map_cons, List.foldl_cons, ih]
    cases b
    · simp
    · simp only [List.mem_cons, true_or, if_true, Bool.toNat_true]
      split
      · omega
      · rfl

theorem idxOf_map_toNat (l : List Bool) : (l.map Bool.toNat).idxOf 1 = l.idxOf true := by
  induction l with
  | nil => rfl
  | cons b l ih =>
    cases b
    · simp [ih]
    · simp

theorem argmax_bool (l : List Bool) :
    argmax (0 :: l.map Bool.toNat) = if true ∈ l then l.idxOf true + 1 else 0 := by
  unfold argmax
  rw [List.foldl_cons, max_self, foldl_max_bool]
  split
  · rw [show max 0 1 = 1 from rfl, List.idxOf_cons, idxOf_map_toNat]
    simp
  · simp

theorem firstEvent_eq {nev nt : ℕ} (table : Fin nev → Fin nt → Bool) (j : Fin nt) :
    firstEvent table j =
      if true ∈ List.ofFn (fun e => table e j) then (List.ofFn (fun e => table e j)).idxOf true + 1 else 0 := by
  unfold firstEvent
  rw [← argmax_bool, List.map_ofFn]
  rfl

theorem firstEvent_zero_iff {nev nt : ℕ} (table : Fin nev → Fin nt → Bool) (j : Fin nt) :
    firstEvent table j = 0 ↔ ∀ e, table e j = false := by
  rw [firstEvent_eq]
  split
  · next h =>
    rw [List.mem_ofFn] at h
    obtain ⟨e, he⟩ := h
    constructor
    · intro h'; omega
    · intro h'; rw [h' e] at he; cases he
  · next h =>
    rw [List.mem_ofFn] at h
    constructor
    · intro _ e
      by_contra hne
      exact h ⟨e, by simpa using hne⟩
    · intro _; rfl

theorem firstEvent_isFirst {nev nt : ℕ} (table : Fin nev → Fin nt → Bool) (j : Fin nt)
    (h : firstEvent table j ≠ 0) : IsFirst nev (flagged table j) (firstEvent table j) := by
  rw [firstEvent_eq] at h ⊢
  split at h
  · next hm =>
    rw [if_pos hm]
    set l := List.ofFn (fun e => table e j) with hl
    have hlt : l.idxOf true < l.length := List.idxOf_lt_length_iff.mpr hm
    have hlen : l.length = nev := by simp [hl]
    refine ⟨by omega, by omega, ?_, ?_⟩
    · refine ⟨⟨l.idxOf true, by omega⟩, rfl, ?_⟩
      have h3 := List.getElem_idxOf hlt
      have h4 : l[l.idxOf true]'hlt = table ⟨l.idxOf true, by omega⟩ j := by
        simp only [hl, List.getElem_ofFn]
      rw [← h4]; exact h3
    · intro k hk1 hk2
      rintro ⟨e, he, ht⟩
      have h1 : e.val < l.idxOf true := by omega
      have := List.not_of_lt_findIdx (p := (· == true)) (xs := l) (i := e.val) h1
      simp [hl, ht] at this
  · exact absurd rfl h

theorem isFirst_unique {n : ℕ} {P : ℕ → Prop} {a b : ℕ} (ha : IsFirst n P a) (hb : IsFirst n P b) : a = b := by
  rcases lt_trichotomy a b with h | h | h
  · exact absurd ha.2.2.1 (hb.2.2.2 a ha.1 h)
  · exact h
  · exact absurd hb.2.2.1 (ha.2.2.2 b hb.1 h)

theorem firstEvent_eq_iff {nev nt : ℕ} (table : Fin nev → Fin nt → Bool) (j : Fin nt) {m : ℕ} (hm : m ≠ 0) :
    firstEvent table j = m ↔ IsFirst nev (flagged table j) m := by
  constructor
  · rintro rfl; exact firstEvent_isFirst table j hm
  · intro h
    have hne : firstEvent table j ≠ 0 := by
      intro h0
      rw [firstEvent_zero_iff] at h0
      obtain ⟨e, _, he⟩ := h.2.2.1
      rw [h0 e] at he; cases he
    exact isFirst_unique (firstEvent_isFirst table j hne) h

theorem firstEvent_le {nev nt : ℕ} (table : Fin nev → Fin nt → Bool) (j : Fin nt) : firstEvent table j ≤ nev := by
  by_cases h : firstEvent table j = 0
  · omega
  · exact (firstEvent_isFirst table j h).2.1

theorem reflIndices_le {nev nt : ℕ} (neg pos : Fin nev → Fin nt → Bool) (j : Fin nt) :
    reflIndices neg pos j ≤ nev := by
  have := firstEvent_le neg j
  unfold reflIndices
  simp only
  cases (decide (firstEvent pos j = 0) || decide (firstEvent neg j < firstEvent pos j)) <;> (simp; try omega)

theorem transIndices_le {nev nt : ℕ} (neg pos : Fin nev → Fin nt → Bool) (j : Fin nt) :
    transIndices neg pos j ≤ nev := by
  have := firstEvent_le pos j
  unfold transIndices
  simp only
  cases (decide (firstEvent neg j = 0) || !decide (firstEvent neg j < firstEvent pos j)) <;> (simp; try omega)

theorem stuckIndices_le {nev nt : ℕ} (neg pos : Fin nev → Fin nt → Bool) (j : Fin nt) :
    stuckIndices neg pos j ≤ nev := by
  unfold stuckIndices
  simp only
  cases (decide (firstEvent neg j = 0) && decide (firstEvent pos j = 0)) <;> simp

theorem refl_cases {nev nt : ℕ} (neg pos : Fin nev → Fin nt → Bool) (j : Fin nt) :
    reflIndices neg pos j =
      if firstEvent pos j = 0 ∨ firstEvent neg j < firstEvent pos j then firstEvent neg j else 0 := by
  unfold reflIndices
  by_cases h1 : firstEvent pos j = 0 <;> by_cases h2 : firstEvent neg j < firstEvent pos j <;> simp [h1, h2]

theorem trans_cases {nev nt : ℕ} (neg pos : Fin nev → Fin nt → Bool) (j : Fin nt) :
    transIndices neg pos j =
      if firstEvent neg j = 0 ∨ ¬ firstEvent neg j < firstEvent pos j then firstEvent pos j else 0 := by
  unfold transIndices
  by_cases h1 : firstEvent neg j = 0 <;> by_cases h2 : firstEvent neg j < firstEvent pos j <;> simp [h1, h2]

theorem stuck_cases {nev nt : ℕ} (neg pos : Fin nev → Fin nt → Bool) (j : Fin nt) :
    stuckIndices neg pos j = if firstEvent neg j = 0 ∧ firstEvent pos j = 0 then nev else 0 := by
  unfold stuckIndices
  by_cases h1 : firstEvent neg j = 0 <;> by_cases h2 : firstEvent pos j = 0 <;> simp [h1, h2]

end Verif.Exits
