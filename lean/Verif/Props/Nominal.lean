import Verif.Props.Materials

/-!
# C136: Cargille oils and their nominal index

Each Cargille liquid is sold with a nominal index at the sodium D line (589.3 nm): series AAA 1.300, 1.305, …; AA 1.400, 1.402, …;
A 1.460, 1.462, …; B 1.642, 1.644, …; E 1.500, 1.505, ….
-/

namespace Verif.Props
open Verif.Index Verif.XF
open Verif (XF PyErr)

/-- nominal index of the first liquid of a series and the step from one liquid to the next (manufacturer's grading) -/
noncomputable def nominal : String → Option (ℝ × ℝ)
  | "AAA" => some (1.300, 0.005)
  | "AA" => some (1.400, 0.002)
  | "A" => some (1.460, 0.002)
  | "B" => some (1.642, 0.002)
  | "E" => some (1.500, 0.005)
  | _ => none

/-- integer form: `lo·W⁴ ≤ (c + d/w² (+ e/w⁴) − nominal)·10⁷·W⁴ ≤ hi·W⁴` for all entries, at `w = W·10⁻⁴` µm with `W = 5893` -/
private def gradedOk (full : Bool) (lo hi : ℤ) : ℤ → ℤ → List ℤ → List ℤ → List ℤ → Bool
  | n0, dn, c :: cs, d :: ds, e :: es =>
    let v := (c - n0) * 5893 ^ 4 + d * 10 ^ 6 * 5893 ^ 2 + (if full then e * 10 ^ 7 else 0)
    decide (lo * 5893 ^ 4 ≤ v) && decide (v ≤ hi * 5893 ^ 4) && gradedOk full lo hi (n0 + dn) dn cs ds es
  | _, _, [], [], [] => true
  | _, _, _, _, _ => false

private theorem gradedOk_get (full : Bool) (lo hi : ℤ) : ∀ (cs ds es : List ℤ) (n0 dn : ℤ), gradedOk full lo hi n0 dn cs ds es = true →
    ∀ (i : ℕ) c d e, cs[i]? = some c → ds[i]? = some d → es[i]? = some e →
      let v := (c - (n0 + dn * i)) * 5893 ^ 4 + d * 10 ^ 6 * 5893 ^ 2 + (if full then e * 10 ^ 7 else 0)
      lo * 5893 ^ 4 ≤ v ∧ v ≤ hi * 5893 ^ 4
  | c :: cs, d :: ds, e :: es, n0, dn, h, 0, c', d', e', hc, hd, he => by
    simp only [gradedOk, Bool.and_eq_true, decide_eq_true_eq] at h
    simp only [List.getElem?_cons_zero, Option.some.injEq] at hc hd he
    subst hc hd he
    simpa using h.1
  | c :: cs, d :: ds, e :: es, n0, dn, h, i + 1, c', d', e', hc, hd, he => by
    simp only [gradedOk, Bool.and_eq_true, decide_eq_true_eq] at h
    simp only [List.getElem?_cons_succ] at hc hd he
    have := gradedOk_get full lo hi cs ds es (n0 + dn) dn h.2 i c' d' e' hc hd he
    have e1 : n0 + dn + dn * (i : ℤ) = n0 + dn * ((i + 1 : ℕ) : ℤ) := by push_cast; ring
    rwa [e1] at this
  | [], _, _, _, _, _, i, _, _, _, hc, _, _ => by simp at hc
  | _ :: _, [], _, _, _, _, i, _, _, _, _, hd, _ => by simp at hd
  | _ :: _, _ :: _, [], _, _, _, i, _, _, _, _, _, he => by simp at he

/-- how far the returned index may lie below and above the nominal one -/
noncomputable def gradeError : String → ℝ × ℝ
  | "AAA" => (-0.0002, 0.0003)
  | "AA" => (-0.0003, 0.0004)
  | "A" => (-0.0067, -0.0003)
  | "B" => (-0.0092, -0.0063)
  | "E" => (-0.0098, -0.0026)
  | _ => (0, 0)

private theorem to_real (full : Bool) (lo hi n0 dn c d e : ℤ) (i : ℕ)
    (h : let v := (c - (n0 + dn * i)) * 5893 ^ 4 + d * 10 ^ 6 * 5893 ^ 2 + (if full then e * 10 ^ 7 else 0)
      lo * 5893 ^ 4 ≤ v ∧ v ≤ hi * 5893 ^ 4) :
    let x := (c : ℝ) / 10 ^ 7 + d / 10 * 10 ^ (-8 : ℤ) / 0.5893 ^ 2 + (if full then (e : ℝ) * 10 ^ (-16 : ℤ) / 0.5893 ^ 4 else 0)
    (lo : ℝ) / 10 ^ 7 ≤ x - (n0 / 10 ^ 7 + dn / 10 ^ 7 * i) ∧ x - (n0 / 10 ^ 7 + dn / 10 ^ 7 * i) ≤ hi / 10 ^ 7 := by
  obtain ⟨h1, h2⟩ := h
  have h1' : ((lo * 5893 ^ 4 : ℤ) : ℝ) ≤ ((c - (n0 + dn * i)) * 5893 ^ 4 + d * 10 ^ 6 * 5893 ^ 2 + (if full then e * 10 ^ 7 else 0) : ℤ) := by
    exact_mod_cast h1
  have h2' : (((c - (n0 + dn * i)) * 5893 ^ 4 + d * 10 ^ 6 * 5893 ^ 2 + (if full then e * 10 ^ 7 else 0) : ℤ) : ℝ) ≤ (hi * 5893 ^ 4 : ℤ) := by
    exact_mod_cast h2
  push_cast at h1' h2'
  dsimp only
  cases full
  · simp only [Bool.false_eq_true, if_false] at h1' h2' ⊢
    norm_num at h1' h2' ⊢
    constructor <;> linarith
  · simp only [if_true] at h1' h2' ⊢
    norm_num at h1' h2' ⊢
    constructor <;> linarith

/-- C136, the coefficients.  With all three coefficients of the table, the Cauchy law gives every liquid of every graded series its
nominal index at 589.3 nm within 0.00004. -/
theorem C136_tables_match_grades_partial (s : String) (n0 dn : ℝ) (hn : nominal s = some (n0, dn)) (cs ds es : List ℤ)
    (hs : series s = some (cs, ds, es)) (i : ℕ) (c d e : ℤ) (hc : cs[i]? = some c) (hd : ds[i]? = some d) (he : es[i]? = some e) :
    |cauchy c d e 0.5893 - (n0 + dn * i)| ≤ 0.00004 := by
  have key : ∀ (N D : ℤ) cs ds es, gradedOk true (-400) 400 N D cs ds es = true → cs[i]? = some c → ds[i]? = some d → es[i]? = some e →
      |cauchy c d e 0.5893 - ((N : ℝ) / 10 ^ 7 + D / 10 ^ 7 * i)| ≤ 0.00004 := by
    intro N D cs ds es h hc hd he
    have := to_real true (-400) 400 N D c d e i (gradedOk_get _ _ _ cs ds es N D h i c d e hc hd he)
    simp only [if_true] at this
    rw [abs_le]
    unfold cauchy
    norm_num at this ⊢
    constructor <;> linarith [this.1, this.2]
  unfold nominal at hn
  split at hn <;> cases hn <;> cases hs
  · convert key 13000000 50000 _ _ _ (by decide +kernel) hc hd he using 3; norm_num
  · convert key 14000000 20000 _ _ _ (by decide +kernel) hc hd he using 3; norm_num
  · convert key 14600000 20000 _ _ _ (by decide +kernel) hc hd he using 3; norm_num
  · convert key 16420000 20000 _ _ _ (by decide +kernel) hc hd he using 3; norm_num
  · convert key 15000000 50000 _ _ _ (by decide +kernel) hc hd he using 3; norm_num

/-- C136, what is returned.  The index returned at 589.3 nm lies within the stated distances of the nominal one: close for the series AAA
and AA, always too small for A, B and E. -/
theorem C136_returned_index_partial (s : String) (n0 dn : ℝ) (hn : nominal s = some (n0, dn)) (i : ℕ) (x : XF)
    (h : nCargille i s 0.5893 = .ok x) :
    ∃ r, x = fin r ∧ n0 + dn * i + (gradeError s).1 ≤ r ∧ r ≤ n0 + dn * i + (gradeError s).2 := by
  rcases hs : series s with _ | ⟨cs, ds, es⟩
  · unfold nCargille at h; rw [hs] at h; cases h
  have hp : ∀ (l : List ℤ), pyIndex l i = l[i]? := by
    intro l; unfold pyIndex; rw [if_pos (by omega)]; simp
  have hex : ∃ c d e, cs[i]? = some c ∧ ds[i]? = some d ∧ es[i]? = some e := by
    unfold nCargille at h
    rw [hs] at h
    simp only [hp] at h
    split at h
    · next c d e hc hd he => exact ⟨c, d, e, hc, hd, he⟩
    · cases h
  obtain ⟨c, d, e, hc, hd, he⟩ := hex
  rw [C52_cargille_value_partial i s 0.5893 (by norm_num) cs ds es c d e hs hc hd he] at h
  refine ⟨_, (Except.ok.inj h).symm, ?_⟩
  have hx : cauchy c d e 0.5893 - e * 10 ^ (-16 : ℤ) / 0.5893 ^ 4 = c / 10 ^ 7 + d / 10 * 10 ^ (-8 : ℤ) / 0.5893 ^ 2 := by
    unfold cauchy; ring
  rw [hx]
  have key : ∀ (lo hi N D : ℤ) cs ds es, gradedOk false lo hi N D cs ds es = true → cs[i]? = some c → ds[i]? = some d → es[i]? = some e →
      (N : ℝ) / 10 ^ 7 + D / 10 ^ 7 * i + lo / 10 ^ 7 ≤ c / 10 ^ 7 + d / 10 * 10 ^ (-8 : ℤ) / 0.5893 ^ 2 ∧
      (c : ℝ) / 10 ^ 7 + d / 10 * 10 ^ (-8 : ℤ) / 0.5893 ^ 2 ≤ (N : ℝ) / 10 ^ 7 + D / 10 ^ 7 * i + hi / 10 ^ 7 := by
    intro lo hi N D cs ds es h hc hd he
    have := to_real false lo hi N D c d e i (gradedOk_get _ _ _ cs ds es N D h i c d e hc hd he)
    simp only [Bool.false_eq_true, if_false, add_zero] at this
    constructor <;> linarith [this.1, this.2]
  unfold nominal at hn
  split at hn <;> cases hn <;> cases hs
  · convert key (-2000) 3000 13000000 50000 _ _ _ (by decide +kernel) hc hd he using 4 <;> norm_num [gradeError]
  · convert key (-3000) 4000 14000000 20000 _ _ _ (by decide +kernel) hc hd he using 4 <;> norm_num [gradeError]
  · convert key (-67000) (-3000) 14600000 20000 _ _ _ (by decide +kernel) hc hd he using 4 <;> norm_num [gradeError]
  · convert key (-92000) (-63000) 16420000 20000 _ _ _ (by decide +kernel) hc hd he using 4 <;> norm_num [gradeError]
  · convert key (-98000) (-26000) 15000000 50000 _ _ _ (by decide +kernel) hc hd he using 4 <;> norm_num [gradeError]

/-- C136, refuted.  Every liquid of series B comes out with the index of a liquid at least three grades lower, and every liquid of
series E at least half a grade lower. -/
theorem C136_nominal_index_refuted (i : ℕ) (x : XF) :
    (nCargille i "B" 0.5893 = .ok x → ∃ r, x = fin r ∧ r < (1.642 + 0.002 * i) - 3 * 0.002) ∧
    (nCargille i "E" 0.5893 = .ok x → ∃ r, x = fin r ∧ r < (1.500 + 0.005 * i) - 0.5 * 0.005) := by
  refine ⟨fun h => ?_, fun h => ?_⟩
  · obtain ⟨r, hr, -, h2⟩ := C136_returned_index_partial "B" _ _ rfl i x h
    refine ⟨r, hr, ?_⟩
    norm_num [gradeError] at h2 ⊢
    linarith
  · obtain ⟨r, hr, -, h2⟩ := C136_returned_index_partial "E" _ _ rfl i x h
    refine ⟨r, hr, ?_⟩
    norm_num [gradeError] at h2 ⊢
    linarith

/-- There are such liquids: number 29 of series B is accepted. -/
example : ∃ x, nCargille (29 : ℕ) "B" 0.5893 = .ok x := (nCargille_ok_iff (29 : ℕ) "B" 0.5893).mpr ⟨30, rfl, by norm_num, by norm_num⟩

end Verif.Props
