import Verif.Model.Index
import Mathlib.Tactic.Linarith
import Mathlib.Tactic.FieldSimp
import Mathlib.Tactic.Ring
import Mathlib.Data.List.Pairwise

/-!
# Facts about piecewise linear interpolation
-/

namespace Verif.Lemmas
open Verif.Index

/-- a table with strictly increasing abscissae -/
def Increasing (tab : List (ℝ × ℝ)) : Prop := tab.Pairwise (fun p q => p.1 < q.1)

theorem lerpAux_none (x : ℝ) (tab : List (ℝ × ℝ)) (h : ∀ p ∈ tab, p.1 < x) : lerpAux x tab = none := by
  induction tab with
  | nil => rfl
  | cons p tab ih =>
    cases tab with
    | nil => rfl
    | cons p1 rest =>
      have h1 := h p1 (by simp)
      simp only [lerpAux]
      rw [if_neg (by linarith)]
      exact ih (fun q hq => h q (List.mem_cons_of_mem _ hq))

/-- on the segment number `i` the interpolant is the line through its ends -/
theorem lerpAux_segment (x : ℝ) (tab : List (ℝ × ℝ)) (hinc : Increasing tab) (i : ℕ) (p q : ℝ × ℝ)
    (hp : tab[i]? = some p) (hq : tab[i+1]? = some q) (h1 : p.1 ≤ x) (h2 : x ≤ q.1) :
    lerpAux x tab = some (p.2 + (q.2 - p.2) / (q.1 - p.1) * (x - p.1)) := by
  induction tab generalizing i with
  | nil => simp at hp
  | cons a tab ih =>
    cases tab with
    | nil => simp at hq
    | cons b rest =>
      cases i with
      | zero =>
        simp at hp hq
        subst hp hq
        simp only [lerpAux]
        rw [if_pos h2]
      | succ i =>
        have hinc' : Increasing (b :: rest) := (List.pairwise_cons.mp hinc).2
        simp only [List.getElem?_cons_succ] at hp hq
        have hrec := ih hinc' i hp (by simpa using hq)
        simp only [lerpAux]
        by_cases hx : x ≤ b.1
        · rw [if_pos hx]
          -- then `i = 0` and `x = b.1`
          have hab : a.1 < b.1 := (List.pairwise_cons.mp hinc).1 b (by simp)
          cases i with
          | zero =>
            simp at hp
            subst hp
            have hxb : x = b.1 := le_antisymm hx h1
            subst hxb
            have : b.1 - a.1 ≠ 0 := by linarith
            congr 1
            field_simp
            ring
          | succ j =>
            exfalso
            have hmem : p ∈ rest := by
              simp only [List.getElem?_cons_succ] at hp
              exact List.mem_of_getElem? hp
            have := (List.pairwise_cons.mp hinc').1 p hmem
            linarith
        · rw [if_neg hx]; exact hrec

/-- the line between two points stays between their ordinates -/
theorem line_between {x0 y0 x1 y1 x lo hi : ℝ} (h : x0 < x1) (h1 : x0 ≤ x) (h2 : x ≤ x1) (a : lo ≤ y0) (b : lo ≤ y1)
    (c : y0 ≤ hi) (d : y1 ≤ hi) :
    lo ≤ y0 + (y1 - y0) / (x1 - x0) * (x - x0) ∧ y0 + (y1 - y0) / (x1 - x0) * (x - x0) ≤ hi := by
  have hne : x1 - x0 ≠ 0 := by linarith
  have e : y0 + (y1 - y0) / (x1 - x0) * (x - x0) = ((x1 - x) / (x1 - x0)) * y0 + ((x - x0) / (x1 - x0)) * y1 := by
    field_simp; ring
  have s : (x1 - x) / (x1 - x0) + (x - x0) / (x1 - x0) = 1 := by field_simp; ring
  have w1 : 0 ≤ (x1 - x) / (x1 - x0) := div_nonneg (by linarith) (by linarith)
  have w2 : 0 ≤ (x - x0) / (x1 - x0) := div_nonneg (by linarith) (by linarith)
  rw [e]
  have sl : (x1 - x) / (x1 - x0) * lo + (x - x0) / (x1 - x0) * lo = lo := by rw [← add_mul, s, one_mul]
  have sh : (x1 - x) / (x1 - x0) * hi + (x - x0) / (x1 - x0) * hi = hi := by rw [← add_mul, s, one_mul]
  constructor
  · linarith [mul_le_mul_of_nonneg_left a w1, mul_le_mul_of_nonneg_left b w2]
  · linarith [mul_le_mul_of_nonneg_left c w1, mul_le_mul_of_nonneg_left d w2]

/-- a query inside the table lies on some segment -/
theorem exists_segment (x : ℝ) (tab : List (ℝ × ℝ)) (hlen : 2 ≤ tab.length) (first last : ℝ × ℝ)
    (hf : tab.head? = some first) (hl : tab.getLast? = some last) (h1 : first.1 ≤ x) (h2 : x ≤ last.1) :
    ∃ i p q, tab[i]? = some p ∧ tab[i+1]? = some q ∧ p.1 ≤ x ∧ x ≤ q.1 := by
  induction tab generalizing first with
  | nil => simp at hf
  | cons a tab ih =>
    cases tab with
    | nil => simp at hlen
    | cons b rest =>
      simp at hf
      subst hf
      by_cases hx : x ≤ b.1
      · exact ⟨0, a, b, by simp, by simp, h1, hx⟩
      · cases rest with
        | nil =>
          simp at hl
          subst hl
          exact absurd h2 hx
        | cons c rest =>
          obtain ⟨i, p, q, hp, hq, g1, g2⟩ := ih (by simp) b (by simp) (by simpa using hl) (by linarith)
          exact ⟨i+1, p, q, by simpa using hp, by simpa using hq, g1, g2⟩

end Verif.Lemmas
