import Verif.Model.Structure
import Verif.Lemmas.Interp
import Mathlib.Analysis.SpecialFunctions.Trigonometric.Bounds
import Mathlib.Tactic.FieldSimp
import Mathlib.Tactic.Positivity
import Mathlib.Tactic.Ring
import Mathlib.Tactic.LinearCombination

/-!
# C54, C55: structure factors
-/

namespace Verif.Props
open Verif.Structure Verif.XF Verif.Lemmas
open Verif (XF PyErr)

theorem zero_over_zero : (fin 0 / fin 0 : XF) = nan := by
  rw [fin_div_def, if_pos rfl]; simp [infOfSign]

/-! ### C54: Percus-Yevick -/

/-- the direct correlation function's transform as a real number -/
noncomputable def cReal (q phi : ℝ) : ℝ :=
  -24 * phi * ((1 + 2 * phi) ^ 2 / (1 - phi) ^ 4 * (Real.sin q - q * Real.cos q) / q ^ 3
    - 6 * phi * (-(1 + phi / 2) ^ 2 / (1 - phi) ^ 4) * (q ^ 2 * Real.cos q - 2 * q * Real.sin q - 2 * Real.cos q + 2) / q ^ 4
    - phi * ((1 + 2 * phi) ^ 2 / (1 - phi) ^ 4) / 2 * (q ^ 4 * Real.cos q - 4 * q ^ 3 * Real.sin q - 12 * q ^ 2 * Real.cos q
      + 24 * q * Real.sin q + 24 * Real.cos q - 24) / q ^ 6)

theorem cHat_eq (q phi : ℝ) (hq : q ≠ 0) (hp : phi ≠ 1) : cHat q phi = fin (cReal q phi) := by
  have h1 : (1 - phi) ^ 4 ≠ 0 := pow_ne_zero _ (sub_ne_zero.mpr (Ne.symm hp))
  unfold cHat lambda1 lambda2 cReal
  simp only [fin_div _ h1, fin_div _ (pow_ne_zero 3 hq), fin_div _ (pow_ne_zero 4 hq), fin_div _ (pow_ne_zero 6 hq),
    fin_div _ (two_ne_zero (α := ℝ)), fin_mul, fin_sub]

/-- real and imaginary part of Baxter's factor, over (1-φ)² -/
noncomputable def bA (q phi s c : ℝ) : ℝ :=
  1 - 12 * phi * ((1 + 2 * phi) / (1 - phi) ^ 2 * (c / q ^ 2 - s / q ^ 3) - 3 * phi / (2 * (1 - phi) ^ 2) * (c - 1) / q ^ 2)
noncomputable def bB (q phi s c : ℝ) : ℝ :=
  12 * phi * ((1 + 2 * phi) / (1 - phi) ^ 2 * (-1 / (2 * q) + s / q ^ 2 + (c - 1) / q ^ 3)
    - 3 * phi / (2 * (1 - phi) ^ 2) * (s / q ^ 2 - 1 / q))

theorem baxter (q phi : ℝ) (hq : q ≠ 0) (hp : phi ≠ 1) :
    1 - cReal q phi = bA q phi (Real.sin q) (Real.cos q) ^ 2 + bB q phi (Real.sin q) (Real.cos q) ^ 2 := by
  have h := Real.sin_sq_add_cos_sq q
  have h1 : 1 - phi ≠ 0 := sub_ne_zero.mpr (Ne.symm hp)
  unfold cReal bA bB
  generalize Real.sin q = s at *
  generalize Real.cos q = c at *
  have ha : ∀ a b : ℝ, a = (1 + 2 * phi) / (1 - phi) ^ 2 → b = -(3 * phi) / (2 * (1 - phi) ^ 2) →
    -144 * phi ^ 2 * (a ^ 2 / q ^ 6 + (a + b) ^ 2 / q ^ 4) * (s ^ 2 + c ^ 2 - 1) = 0 := by
      intro a b _ _; rw [h]; ring
  have := ha _ _ rfl rfl
  rw [← sub_eq_zero]
  rw [← this]
  field_simp
  ring

/-- Baxter's factor has no real zero -/
theorem baxter_ne_zero (q phi : ℝ) (hq : q ≠ 0) (h0 : 0 ≤ phi) (h1 : phi < 1)
    (hA : bA q phi (Real.sin q) (Real.cos q) = 0) (hB : bB q phi (Real.sin q) (Real.cos q) = 0) : False := by
  rcases eq_or_lt_of_le h0 with h | h0
  · subst h; simp [bA] at hA
  obtain ⟨t, rfl⟩ : ∃ t, q = 2 * t := ⟨q / 2, by ring⟩
  have ht : t ≠ 0 := by rintro rfl; simp at hq
  have hg : 1 - phi ≠ 0 := by linarith
  have hsin := Real.sin_two_mul t
  have hcos := Real.cos_two_mul t
  have hsc := Real.sin_sq_add_cos_sq t
  have hlt := Real.sin_sq_lt_sq ht
  rw [hsin, hcos] at hA hB
  generalize Real.sin t = S at *
  generalize Real.cos t = C at *
  have hC : C ^ 2 = 1 - S ^ 2 := by linarith
  rw [hC] at hA hB
  have R : t ^ 3 * (1 - phi) ^ 2 = 3 * phi * ((1 + 2 * phi) * (t - S * C) - (2 + phi) * t * S ^ 2) := by
    have : bA (2 * t) phi (2 * S * C) (2 * (1 - S ^ 2) - 1) * (t ^ 3 * (1 - phi) ^ 2) =
        t ^ 3 * (1 - phi) ^ 2 - 3 * phi * ((1 + 2 * phi) * (t - S * C) - (2 + phi) * t * S ^ 2) := by
      unfold bA; field_simp; ring
    rw [hA] at this; linarith
  have I : (1 + 2 * phi) * (t ^ 2 - S ^ 2) = (2 + phi) * t * (t - S * C) := by
    have : bB (2 * t) phi (2 * S * C) (2 * (1 - S ^ 2) - 1) * (t ^ 3 * (1 - phi) ^ 2) =
        3 * phi * (-t ^ 2 + 2 * t * S * C - S ^ 2 + phi * (t ^ 2 + t * S * C - 2 * S ^ 2)) := by
      unfold bB; field_simp; ring
    rw [hB, zero_mul] at this
    have h3 : -t ^ 2 + 2 * t * S * C - S ^ 2 + phi * (t ^ 2 + t * S * C - 2 * S ^ 2) = 0 := by
      rcases mul_eq_zero.mp this.symm with h | h
      · linarith
      · exact h
    linear_combination h3
  have E2 : (2 + phi) * (t ^ 2) ^ 2 * (1 - phi) ^ 2 + 3 * phi * (2 + phi) ^ 2 * t ^ 2 * S ^ 2 =
      3 * phi * (1 + 2 * phi) ^ 2 * (t ^ 2 - S ^ 2) := by
    linear_combination (2 + phi) * t * R - 3 * phi * (1 + 2 * phi) * I
  have E1 : (2 + phi) ^ 2 * t ^ 2 * S ^ 2 * (1 - S ^ 2) = ((1 - phi) * t ^ 2 + (1 + 2 * phi) * S ^ 2) ^ 2 := by
    have e : (2 + phi) * t * (S * C) = (1 - phi) * t ^ 2 + (1 + 2 * phi) * S ^ 2 := by linear_combination I
    rw [← e, ← hC]; ring
  have E3 : (t ^ 2 - S ^ 2) * ((1 + 2 * phi) ^ 2 * S ^ 2 - (1 - phi) ^ 2 * t ^ 2) = (2 + phi) ^ 2 * t ^ 2 * (S ^ 2) ^ 2 := by
    linear_combination E1
  have E4 : (2 + phi) * (t ^ 2) ^ 2 * (1 - phi) ^ 4 * (S ^ 2 - t ^ 2) = 0 := by
    linear_combination ((1 + 2 * phi) ^ 2 * S ^ 2 - (1 - phi) ^ 2 * t ^ 2) * E2 + 3 * phi * (1 + 2 * phi) ^ 2 * E3
  have hne : (2 + phi) * (t ^ 2) ^ 2 * (1 - phi) ^ 4 ≠ 0 := by
    have : 2 + phi ≠ 0 := by linarith
    positivity
  rcases mul_eq_zero.mp E4 with h | h
  · exact hne h
  · linarith

theorem one_sub_cReal_pos (q phi : ℝ) (hq : q ≠ 0) (h0 : 0 ≤ phi) (h1 : phi < 1) : 0 < 1 - cReal q phi := by
  rw [baxter q phi hq (by linarith)]
  rcases lt_or_eq_of_le (add_nonneg (sq_nonneg (bA q phi (Real.sin q) (Real.cos q))) (sq_nonneg (bB q phi (Real.sin q) (Real.cos q)))) with h | h
  · exact h
  · exfalso
    have hA : bA q phi (Real.sin q) (Real.cos q) = 0 := by nlinarith
    have hB : bB q phi (Real.sin q) (Real.cos q) = 0 := by nlinarith
    exact baxter_ne_zero q phi hq h0 h1 hA hB

theorem factorPy_eq (q phi : ℝ) (hq : q ≠ 0) (h0 : 0 ≤ phi) (h1 : phi < 1) :
    factorPy q phi = fin (1 / (1 - cReal q phi)) := by
  unfold factorPy
  rw [cHat_eq q phi hq (by linarith), fin_sub, fin_div _ (one_sub_cReal_pos q phi hq h0 h1).ne']

/-- C54, Percus-Yevick.  At every volume fraction below 1 and every wavevector other than 0 the structure factor is a finite
positive number; in particular its denominator never vanishes. -/
theorem C54_py_positive (q phi : ℝ) (hq : q ≠ 0) (h0 : 0 ≤ phi) (h1 : phi < 1) :
    ∃ s, factorPy q phi = fin s ∧ 0 < s :=
  ⟨_, factorPy_eq q phi hq h0 h1, one_div_pos.mpr (one_sub_cReal_pos q phi hq h0 h1)⟩

/-- C54, Percus-Yevick.  Without particles the structure factor is 1. -/
theorem C54_py_dilute (q : ℝ) (hq : q ≠ 0) : factorPy q 0 = fin 1 := by
  rw [factorPy_eq q 0 hq le_rfl (by norm_num)]
  simp [cReal]

/-- C54, Percus-Yevick.  At wavevector 0 the result is NaN at every volume fraction other than 1 (the limit is
`C73_py_compressibility`). -/
theorem C54_py_at_zero (phi : ℝ) (hp : phi ≠ 1) : factorPy 0 phi = nan := by
  have h1 : (1 - phi) ^ 4 ≠ 0 := pow_ne_zero _ (sub_ne_zero.mpr (Ne.symm hp))
  unfold factorPy cHat lambda1 lambda2
  simp only [fin_div _ h1, fin_div _ (two_ne_zero (α := ℝ)), fin_mul]
  norm_num [zero_over_zero]

/-! ### C54: paracrystal -/

/-- C54, paracrystal.  With damping r = exp(-(q d φ^(-1/3) σ)²/2) the structure factor lies between (1-r)/(1+r) and (1+r)/(1-r), hence
is positive, at every wavevector other than 0, positive volume fraction and non-zero σ. -/
theorem C54_para_bounds (q phi sigma r : ℝ) (hq : q ≠ 0) (hp : 0 < phi) (hs : sigma ≠ 0)
    (hr : r = Real.exp (-(q * phi ^ (-1 / 3 : ℝ) * sigma) ^ 2 / 2)) :
    0 < r ∧ r < 1 ∧ ∃ s, factorPara q phi sigma = fin s ∧ (1 - r) / (1 + r) ≤ s ∧ s ≤ (1 + r) / (1 - r) ∧ 0 < s := by
  have hpow : phi ^ (-1 / 3 : ℝ) ≠ 0 := (Real.rpow_pos_of_pos hp _).ne'
  have hr0 : 0 < r := by rw [hr]; exact Real.exp_pos _
  have hr1 : r < 1 := by
    rw [hr, Real.exp_lt_one_iff]
    have : 0 < (q * phi ^ (-1 / 3 : ℝ) * sigma) ^ 2 := by positivity
    linarith
  refine ⟨hr0, hr1, ?_⟩
  unfold factorPara paraR
  rw [← hr]
  have c1 := Real.cos_le_one (q * phi ^ (-1 / 3 : ℝ))
  have c2 := Real.neg_one_le_cos (q * phi ^ (-1 / 3 : ℝ))
  generalize Real.cos (q * phi ^ (-1 / 3 : ℝ)) = c at *
  have hd : 0 < 1 + r ^ 2 - 2 * r * c := by nlinarith [sq_pos_of_pos (sub_pos.mpr hr1)]
  have hn : 0 < 1 - r ^ 2 := by nlinarith
  rw [fin_div _ hd.ne']
  refine ⟨_, rfl, ?_, ?_, div_pos hn hd⟩
  · rw [div_le_div_iff₀ (by linarith) hd]; nlinarith [mul_pos hr0 (sub_pos.mpr hr1)]
  · rw [div_le_div_iff₀ hd (by linarith)]; nlinarith [mul_pos hr0 (sub_pos.mpr hr1)]

/-- C54, paracrystal.  At wavevector 0 the result is NaN. -/
theorem C54_para_at_zero (phi sigma : ℝ) : factorPara 0 phi sigma = nan := by
  unfold factorPara paraR
  norm_num [zero_over_zero]

/-- C54, polydisperse.  The result is never negative. -/
theorem C54_poly_nonneg (q phi : ℝ) (l : List Species) : 0 ≤ factorPoly q phi l := by
  unfold factorPoly
  split_ifs with h
  · exact le_rfl
  · exact not_lt.mp h

example : (0.3 : ℝ) ≠ 0 ∧ (0 : ℝ) ≤ 0.5 ∧ (0.5 : ℝ) < 1 := by norm_num

/-! ### C55 -/

/-- the full property: beyond the last datum the last datum is returned -/
def HeldConstantAbove : Prop := ∀ (q : ℝ) (xs ys : List ℝ) (xl yl : ℝ), xs.Pairwise (· < ·) → xs.length = ys.length →
  xs.getLast? = some xl → ys.getLast? = some yl → xl < q → factorData q ys xs = .ok yl

/-- C55, refuted above the table: the value returned there is the first datum. -/
theorem C55_above_table_refuted : ¬ HeldConstantAbove ∧ factorData 3 [0, 5] [1, 2] = .ok 0 := by
  have key : factorData 3 [0, 5] [1, 2] = .ok 0 := by
    simp only [factorData, List.length_cons, List.length_nil, ne_eq, not_true_eq_false, if_false, Index.interp1d,
      List.zip_cons_cons, List.zip_nil_left, Index.lerpAux]
    norm_num
  refine ⟨fun h => ?_, key⟩
  have := h 3 [1, 2] [0, 5] 2 5 (by norm_num [List.pairwise_cons]) rfl rfl rfl (by norm_num)
  rw [key] at this
  have := Except.ok.inj this
  norm_num at this

/-- C55, bad tables: `factor_data` answers every query, or rejects every query; it answers exactly when the table is not empty and has as
many abscissae as ordinates. -/
theorem C55_bad_tables_partial (xs ys : List ℝ) :
    (∀ q, ∃ s, factorData q ys xs = .ok s) ∧ (ys ≠ [] ∧ xs.length = ys.length) ∨
    (∀ q, ∃ e, factorData q ys xs = .error e) ∧ ¬ (ys ≠ [] ∧ xs.length = ys.length) := by
  cases ys with
  | nil => exact Or.inr ⟨fun q => ⟨_, rfl⟩, by simp⟩
  | cons y ys =>
    by_cases h : xs.length = (y :: ys).length
    · exact Or.inl ⟨fun q => ⟨_, by simp only [factorData]; rw [if_neg (not_not.mpr h.symm)]⟩, by simp, h⟩
    · exact Or.inr ⟨fun q => ⟨_, by simp only [factorData]; rw [if_pos (Ne.symm h)]⟩, by simp_all⟩

/-- C55, what holds.  For a strictly increasing table: every tabulated point returns its datum; a query between two neighbouring
points returns the linear interpolation, which lies between the two data; below the table the first datum is returned, and above
it the first datum too. -/
theorem C55_interpolation_partial (q : ℝ) (xs ys : List ℝ) (y0 : ℝ) (hxs : xs.Pairwise (· < ·)) (hl : xs.length = ys.length)
    (h2 : 2 ≤ xs.length) (hy0 : ys.head? = some y0) :
    (∀ (i : ℕ) (x y : ℝ), xs[i]? = some x → ys[i]? = some y → factorData x ys xs = .ok y) ∧
    (∀ (i : ℕ) (xa ya xb yb : ℝ), xs[i]? = some xa → ys[i]? = some ya → xs[i+1]? = some xb → ys[i+1]? = some yb → xa ≤ q → q ≤ xb →
      ∃ s, factorData q ys xs = .ok s ∧ s = ya + (yb - ya) * ((q - xa) / (xb - xa)) ∧ min ya yb ≤ s ∧ s ≤ max ya yb) ∧
    ((∀ x ∈ xs, q < x) → factorData q ys xs = .ok y0) ∧
    ((∀ x ∈ xs, x < q) → factorData q ys xs = .ok y0) := by
  have hinc : Increasing (xs.zip ys) := by
    unfold Increasing
    rw [List.pairwise_iff_getElem]
    intro i j hi hj hij
    simp only [List.getElem_zip]
    exact List.pairwise_iff_getElem.mp hxs i j _ _ hij
  have hunf : ∀ q, factorData q ys xs = .ok (Index.interp1d id y0 y0 (xs.zip ys) q) := by
    intro q
    cases ys with
    | nil => simp at hy0
    | cons a t => simp at hy0; subst hy0; simp [factorData, hl]
  have hcons : ∃ x0, xs.head? = some x0 ∧ ∀ q, Index.interp1d id y0 y0 (xs.zip ys) q =
      if q < x0 then y0 else match Index.lerpAux q (xs.zip ys) with
        | some y => y
        | none => y0 := by
    cases xs with
    | nil => simp at h2
    | cons a t =>
      cases ys with
      | nil => simp at hl
      | cons b t' => exact ⟨a, rfl, fun q => rfl⟩
  obtain ⟨x0, hx0, hint⟩ := hcons
  have hmin : ∀ x ∈ xs, x0 ≤ x := by
    cases xs with
    | nil => simp at h2
    | cons a t =>
      simp at hx0; subst hx0
      intro x hx
      rcases List.mem_cons.mp hx with h | h
      · rw [h]
      · exact ((List.pairwise_cons.mp hxs).1 x h).le
  have hzip : ∀ (i : ℕ) (x y : ℝ), xs[i]? = some x → ys[i]? = some y → (xs.zip ys)[i]? = some (x, y) := by
    intro i x y hx hy
    rw [List.getElem?_zip_eq_some]
    exact ⟨hx, hy⟩
  have seg : ∀ q, ∀ (i : ℕ) (xa ya xb yb : ℝ), xs[i]? = some xa → ys[i]? = some ya → xs[i+1]? = some xb → ys[i+1]? = some yb → xa ≤ q → q ≤ xb →
      factorData q ys xs = .ok (ya + (yb - ya) / (xb - xa) * (q - xa)) := by
    intro q i xa ya xb yb hxa hya hxb hyb g1 g2
    rw [hunf, hint, if_neg, lerpAux_segment q _ hinc i (xa, ya) (xb, yb) (hzip i xa ya hxa hya) (hzip (i+1) xb yb hxb hyb) g1 g2]
    have := hmin xa (List.mem_of_getElem? hxa)
    linarith
  have hlt : ∀ (i : ℕ) (xa xb : ℝ), xs[i]? = some xa → xs[i+1]? = some xb → xa < xb := by
    intro i xa xb ha hb
    obtain ⟨hi, rfl⟩ := List.getElem?_eq_some_iff.mp ha
    obtain ⟨hj, rfl⟩ := List.getElem?_eq_some_iff.mp hb
    exact List.pairwise_iff_getElem.mp hxs i (i+1) hi hj (by omega)
  refine ⟨?_, ?_, ?_, ?_⟩
  · intro i x y hx hy
    obtain ⟨hi, hxi⟩ := List.getElem?_eq_some_iff.mp hx
    by_cases hlast : i + 1 < xs.length
    · have hb : xs[i+1]? = some xs[i+1] := List.getElem?_eq_getElem hlast
      have hyb : ys[i+1]? = some (ys[i+1]'(by omega)) := List.getElem?_eq_getElem (by omega)
      rw [seg x i x y _ _ hx hy hb hyb le_rfl (hlt i x _ hx hb).le]
      simp
    · obtain ⟨j, rfl⟩ : ∃ j, i = j + 1 := ⟨i - 1, by omega⟩
      have ha : xs[j]? = some (xs[j]'(by omega)) := List.getElem?_eq_getElem (by omega)
      have hya : ys[j]? = some (ys[j]'(by omega)) := List.getElem?_eq_getElem (by omega)
      have hl2 := hlt j _ x ha hx
      rw [seg x j _ _ x y ha hya hx hy hl2.le le_rfl]
      congr 1
      have : x - xs[j] ≠ 0 := by linarith
      field_simp; ring
  · intro i xa ya xb yb hxa hya hxb hyb g1 g2
    refine ⟨_, seg q i xa ya xb yb hxa hya hxb hyb g1 g2, by ring, ?_⟩
    exact line_between (hlt i xa xb hxa hxb) g1 g2 (min_le_left _ _) (min_le_right _ _) (le_max_left _ _) (le_max_right _ _)
  · intro h
    rw [hunf, hint, if_pos]
    apply h
    cases xs with
    | nil => simp at h2
    | cons a t => simp at hx0; subst hx0; simp
  · intro h
    rw [hunf, hint, lerpAux_none]
    · split_ifs <;> rfl
    · intro p hp
      exact h p.1 (List.of_mem_zip hp).1

example : ([0.5, 1, 4] : List ℝ).Pairwise (· < ·) ∧ ([2, 3, 1] : List ℝ).head? = some 2 := by norm_num [List.pairwise_cons]

end Verif.Props
