import Verif.Lemmas.Interp
import Mathlib.Tactic.Positivity

/-!
# C72: user-supplied refractive index data
-/

namespace Verif.Props
open Verif.Index Verif.XF Verif.Lemmas
open Verif (XF PyErr)

/-! ### the rounding of the query -/

theorem round2_near (x : ℝ) : |round2 x - x| ≤ 0.005 := by
  unfold round2
  have f1 := Int.floor_le (x * 100)
  have f2 := Int.lt_floor_add_one (x * 100)
  simp only
  rw [abs_le]
  split_ifs <;> constructor <;> rw [← sub_nonneg] <;> ring_nf <;> norm_num <;> linarith

theorem round2_hundredth (m : ℤ) : round2 (m / 100) = m / 100 := by
  unfold round2
  have e : (m : ℝ) / 100 * 100 = m := by ring
  simp only [e, Int.floor_intCast, sub_self]
  rw [if_pos (by norm_num)]

/-! ### C72 -/

theorem n_data (w unit : ℝ) (xs ys : List ℝ) (hlen : 2 ≤ (xs.zip ys).length) (first last : ℝ × ℝ)
    (hf : (xs.zip ys).head? = some first) (hl : (xs.zip ys).getLast? = some last) (hinc : Increasing (xs.zip ys)) :
    (round2 (w / unit) < first.1 ∨ last.1 < round2 (w / unit) → n "data" w (some ys) (some xs) unit = .error .valueError) ∧
    (∀ i p q, (xs.zip ys)[i]? = some p → (xs.zip ys)[i+1]? = some q → p.1 ≤ round2 (w / unit) → round2 (w / unit) ≤ q.1 →
      n "data" w (some ys) (some xs) unit = .ok (fin (p.2 + (q.2 - p.2) / (q.1 - p.1) * (round2 (w / unit) - p.1)))) := by
  have hn : n "data" w (some ys) (some xs) unit = interp1d (fun y => .ok (fin y)) (.error .valueError) (.error .valueError)
      (xs.zip ys) (round2 (w / unit)) := by unfold n; rw [if_pos rfl]
  rw [hn]
  generalize round2 (w / unit) = r
  generalize xs.zip ys = tab at *
  have hhead : ∀ p ∈ tab, first.1 ≤ p.1 := by
    cases tab with
    | nil => simp at hf
    | cons a t =>
      simp at hf; subst hf
      intro p hp
      rcases List.mem_cons.mp hp with h | h
      · rw [h]
      · exact ((List.pairwise_cons.mp hinc).1 p h).le
  have hlast : ∀ p ∈ tab, p.1 ≤ last.1 := by
    intro p hp
    have hne : tab ≠ [] := by rintro rfl; simp at hf
    rw [List.getLast?_eq_some_getLast hne] at hl
    have hl' := Option.some.inj hl
    obtain ⟨i, hi, hp⟩ := List.getElem_of_mem hp
    rw [List.getLast_eq_getElem] at hl'
    rcases Nat.lt_or_ge i (tab.length - 1) with h | h
    · have := (List.pairwise_iff_getElem.mp hinc) i (tab.length - 1) hi (by omega) h
      rw [hp, hl'] at this; exact this.le
    · have : i = tab.length - 1 := by omega
      subst this
      rw [← hp, hl']
  have hunf : ∀ x, interp1d (α := Except PyErr XF) (fun y => .ok (fin y)) (.error .valueError) (.error .valueError) tab x =
      if x < first.1 then .error .valueError else match lerpAux x tab with
        | some y => .ok (fin y)
        | none => .error .valueError := by
    intro x
    cases tab with
    | nil => simp at hf
    | cons a t => simp at hf; subst hf; rfl
  constructor
  · intro h
    rw [hunf]
    rcases h with h | h
    · rw [if_pos h]
    · by_cases h2 : r < first.1
      · rw [if_pos h2]
      · rw [if_neg h2, lerpAux_none r tab (fun p hp => (hlast p hp).trans_lt h)]
  · intro i p q hp hq h1 h2
    rw [hunf, if_neg, lerpAux_segment r tab hinc i p q hp hq h1 h2]
    have := hhead p (List.mem_of_getElem? hp)
    linarith

/-- The full property: between two neighbouring data the index is the linear interpolation at the wavelength asked for. -/
def InterpolatesData : Prop := ∀ (w unit : ℝ) (xs ys : List ℝ) (i : ℕ) (x0 y0 x1 y1 : ℝ), 0 < unit →
  xs.Pairwise (· < ·) → xs.length = ys.length → xs[i]? = some x0 → ys[i]? = some y0 → xs[i+1]? = some x1 → ys[i+1]? = some y1 →
  x0 ≤ w / unit → w / unit ≤ x1 →
  n "data" w (some ys) (some xs) unit = .ok (fin (y0 + (y1 - y0) / (x1 - x0) * (w / unit - x0)))

theorem increasing_zip (xs ys : List ℝ) (h : xs.Pairwise (· < ·)) : Increasing (xs.zip ys) := by
  unfold Increasing
  rw [List.pairwise_iff_getElem]
  intro i j hi hj hij
  simp only [List.getElem_zip]
  exact List.pairwise_iff_getElem.mp h i j _ _ hij

/-- C72, refuted.  The query is rounded to two decimals in the unit of the data: with data every 4 nm given in micrometres, the
query at the second datum returns the first. -/
theorem C72_index_data_refuted : ¬ InterpolatesData ∧
    n "data" 0.404 (some [1.5, 1.6, 1.7]) (some [0.4, 0.404, 0.408]) 1 = .ok (fin 1.5) := by
  have hr : round2 (0.404 / 1) = 0.4 := by
    unfold round2
    have : ⌊(0.404 / 1 * 100 : ℝ)⌋ = 40 := by rw [Int.floor_eq_iff]; norm_num
    simp only [this]
    rw [if_pos (by norm_num)]
    norm_num
  have key : n "data" 0.404 (some [1.5, 1.6, 1.7]) (some [0.4, 0.404, 0.408]) 1 = .ok (fin 1.5) := by
    unfold n
    rw [if_pos rfl]
    simp only [hr, interp1d, List.zip_cons_cons, List.zip_nil_left, lerpAux]
    rw [if_neg (by norm_num), if_pos (by norm_num)]
    norm_num
  refine ⟨fun h => ?_, key⟩
  have := h 0.404 1 [0.4, 0.404, 0.408] [1.5, 1.6, 1.7] 0 0.4 1.5 0.404 1.6 (by norm_num)
    (by norm_num [List.pairwise_cons]) rfl rfl rfl rfl rfl (by norm_num) (by norm_num)
  rw [key] at this
  have h2 := Except.ok.inj this
  rw [fin_inj] at h2
  norm_num at h2

/-- C72, what holds.  The query is replaced by a number of hundredths of the unit of the data, at most 0.005 units away (the
query itself if it is such a number).  If that number is outside the table there is a ValueError; otherwise the result is the
linear interpolation between the two neighbouring data, and lies between them. -/
theorem C72_index_data_partial (w unit : ℝ) (xs ys : List ℝ) (hxs : xs.Pairwise (· < ·)) (hl : xs.length = ys.length)
    (h2 : 2 ≤ xs.length) :
    ∃ r : ℝ, |r - w / unit| ≤ 0.005 ∧ (∀ m : ℤ, w / unit = m / 100 → r = w / unit) ∧
    ((∀ x ∈ xs, r < x) ∨ (∀ x ∈ xs, x < r) → n "data" w (some ys) (some xs) unit = .error .valueError) ∧
    (¬ (∀ x ∈ xs, r < x) → ¬ (∀ x ∈ xs, x < r) → ∃ i x0 y0 x1 y1, xs[i]? = some x0 ∧ ys[i]? = some y0 ∧
      xs[i+1]? = some x1 ∧ ys[i+1]? = some y1 ∧ x0 ≤ r ∧ r ≤ x1 ∧
      n "data" w (some ys) (some xs) unit = .ok (fin (y0 + (y1 - y0) / (x1 - x0) * (r - x0))) ∧
      min y0 y1 ≤ y0 + (y1 - y0) / (x1 - x0) * (r - x0) ∧ y0 + (y1 - y0) / (x1 - x0) * (r - x0) ≤ max y0 y1) := by
  refine ⟨round2 (w / unit), round2_near _, fun m hm => by rw [hm, round2_hundredth], ?_, ?_⟩
  all_goals
    have hzl : (xs.zip ys).length = xs.length := by simp [hl]
    have hne : xs.zip ys ≠ [] := by intro h; rw [h] at hzl; simp at hzl; omega
    have hinc := increasing_zip xs ys hxs
    have hfirst : (xs.zip ys).head? = some (xs[0], ys[0]) := by
      rw [List.head?_eq_getElem?, List.getElem?_eq_getElem (by omega), List.getElem_zip]
    have hlast : (xs.zip ys).getLast? = some (xs[xs.length - 1], ys[xs.length - 1]) := by
      rw [List.getLast?_eq_getElem?, hzl, List.getElem?_eq_getElem (by omega), List.getElem_zip]
    obtain ⟨D1, D2⟩ := n_data w unit xs ys (by omega) _ _ hfirst hlast hinc
  · rintro (h | h)
    · exact D1 (Or.inl (h _ (List.getElem_mem _)))
    · exact D1 (Or.inr (h _ (List.getElem_mem _)))
  · intro g1 g2
    have hle : ∀ i j (hi : i < xs.length) (hj : j < xs.length), i ≤ j → xs[i] ≤ xs[j] := by
      intro i j hi hj hij
      rcases Nat.lt_or_ge i j with h | h
      · exact (List.pairwise_iff_getElem.mp hxs i j hi hj h).le
      · have : i = j := by omega
        subst this; exact le_rfl
    have k1 : xs[0] ≤ round2 (w / unit) := by
      by_contra hc
      refine g1 fun x hx => ?_
      obtain ⟨i, hi, rfl⟩ := List.getElem_of_mem hx
      exact (not_le.mp hc).trans_le (hle 0 i _ hi (Nat.zero_le _))
    have k2 : round2 (w / unit) ≤ xs[xs.length - 1] := by
      by_contra hc
      refine g2 fun x hx => ?_
      obtain ⟨i, hi, rfl⟩ := List.getElem_of_mem hx
      exact (hle i _ hi (by omega) (by omega)).trans_lt (not_le.mp hc)
    obtain ⟨i, p, q, hp, hq, s1, s2⟩ := exists_segment _ _ (by omega) _ _ hfirst hlast k1 k2
    have hpp := List.getElem?_eq_some_iff.mp hp
    have hqq := List.getElem?_eq_some_iff.mp hq
    obtain ⟨hi, hpe⟩ := hpp
    obtain ⟨hi1, hqe⟩ := hqq
    rw [List.getElem_zip] at hpe hqe
    have hi' : i < xs.length := by omega
    have hi1' : i + 1 < xs.length := by omega
    have hpq : p.1 < q.1 := by
      rw [← hpe, ← hqe]
      exact List.pairwise_iff_getElem.mp hxs i (i+1) hi' hi1' (by omega)
    refine ⟨i, p.1, p.2, q.1, q.2, ?_, ?_, ?_, ?_, s1, s2, D2 i p q hp hq s1 s2,
      line_between hpq s1 s2 (min_le_left _ _) (min_le_right _ _) (le_max_left _ _) (le_max_right _ _)⟩
    · rw [← hpe]; simp [hi']
    · rw [← hpe]; simp
    · rw [← hqe]; simp [hi1']
    · rw [← hqe]; simp

example : ([400, 450.5, 500] : List ℝ).Pairwise (· < ·) := by norm_num [List.pairwise_cons]

end Verif.Props
