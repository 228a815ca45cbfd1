import Verif.Model.Index
import Mathlib.Analysis.Calculus.Deriv.MeanValue
import Mathlib.Analysis.Calculus.Deriv.Pow
import Mathlib.Tactic.FieldSimp
import Mathlib.Tactic.Positivity
import Mathlib.Tactic.Ring
import Mathlib.Tactic.Linarith

/-!
# C53, C72: material lookup and user-supplied refractive index data
-/

namespace Verif.Props
open Verif.Index Verif.XF
open Verif (XF PyErr)

/-! ### C53: the specification, in terms of real numbers -/

/-- one oscillator: strength b, squared resonance wavelength c -/
noncomputable def osc (b c w : ℝ) : ℝ := b * w ^ 2 / (w ^ 2 - c)

/-- The materials: range of validity in micrometres, and the published dispersion formula.  Ranges as documented in the comments
of the table; for water and ethanol none is documented there (0.2-1.1 um is the range of the cited measurement; ethanol and
vacuum are given a generous range). -/
noncomputable def published : String → Option (ℝ × ℝ × (ℝ → ℝ))
  | "water" => some (0.2, 1.1, fun w => Real.sqrt (1 + osc 0.5684027565 0.005101829712 w + osc 0.1726177391 0.01821153936 w
      + osc 0.02086189578 0.02620722293 w + osc 0.1130748688 10.69792721 w))
  | "polystyrene" => some (0.4368, 1.052, fun w => Real.sqrt (1 + osc 1.4435 0.020216 w))
  | "pmma" => some (0.42, 1.62, fun w => Real.sqrt (2.1778 + 0.0061209 * w ^ 2 - 0.0015004 * w ^ 4 + 0.023678 / w ^ 2
      - 0.0042137 / w ^ 4 + 0.00073417 / w ^ 6 - 0.000045042 / w ^ 8))
  | "rutile" => some (0.43, 1.53, fun w => Real.sqrt (5.913 + 0.2441 / (w ^ 2 - 0.0803)))
  | "fused silica" => some (0.21, 3.71, fun w => Real.sqrt (1 + osc 0.6961663 (0.0684043 ^ 2) w
      + osc 0.4079426 (0.1162414 ^ 2) w + osc 0.8974794 (9.896161 ^ 2) w))
  | "soda lime glass" => some (0.31, 4.6, fun w => 1.5130 - 0.003169 * w ^ 2 + 0.003962 / w ^ 2)
  | "zirconia" => some (0.405, 0.635, fun w => Real.sqrt (1 + osc 3.3037 (0.1987971 ^ 2) w))
  | "ethanol" => some (0.2, 10, fun w => 1.35265 + 0.00306 / w ^ 2 + 0.00002 / w ^ 4)
  | "brookite" => some (0.43, 0.71, fun w => Real.sqrt (3.9858 + osc 2.1036 (0.287 ^ 2) w - 0.18 * w ^ 2))
  | "anatase" => some (0.5, 1.7, fun w => 2.1526 + 0.041155 / w ^ 2 + 0.0021798 / w ^ 4)
  | _ => none

/-! ### auxiliary facts -/

theorem sellmeier_eq (b c w : ℝ) (h : w ^ 2 - c ≠ 0) : sellmeier b c (fin w) = fin (osc b c w) := by
  unfold sellmeier osc
  simp only [fin_mul, fin_sub]
  rw [fin_div _ (by rw [← sq]; exact h)]
  congr 1; ring

theorem osc_lt {b c w w' : ℝ} (hb : 0 < b) (hc : 0 < c) (h : (c < w ^ 2 ∧ c < w' ^ 2) ∨ (w ^ 2 < c ∧ w' ^ 2 < c))
    (hw : w ^ 2 < w' ^ 2) : osc b c w' < osc b c w := by
  unfold osc
  have e : ∀ v : ℝ, v ^ 2 - c ≠ 0 → b * v ^ 2 / (v ^ 2 - c) = b + b * c / (v ^ 2 - c) := by
    intro v hv; field_simp; ring
  have hne : w ^ 2 - c ≠ 0 ∧ w' ^ 2 - c ≠ 0 := by
    rcases h with h | h
    · exact ⟨by linarith [h.1, h.2] |> (fun (q : 0 < w^2 - c) => ne_of_gt q), by linarith [h.1, h.2] |> (fun (q : 0 < w'^2 - c) => ne_of_gt q)⟩
    · exact ⟨by linarith [h.1, h.2] |> (fun (q : w^2 - c < 0) => ne_of_lt q), by linarith [h.1, h.2] |> (fun (q : w'^2 - c < 0) => ne_of_lt q)⟩
  rw [e w hne.1, e w' hne.2]
  have hbc : 0 < b * c := mul_pos hb hc
  have key : b * c / (w ^ 2 - c) - b * c / (w' ^ 2 - c) = b * c * (w' ^ 2 - w ^ 2) / ((w ^ 2 - c) * (w' ^ 2 - c)) := by
    field_simp [hne.1, hne.2]; ring
  have hp : 0 < (w ^ 2 - c) * (w' ^ 2 - c) := by
    rcases h with h | h
    · exact mul_pos (by linarith [h.1]) (by linarith [h.2])
    · exact mul_pos_of_neg_of_neg (by linarith [h.1]) (by linarith [h.2])
  have : 0 < b * c * (w' ^ 2 - w ^ 2) / ((w ^ 2 - c) * (w' ^ 2 - c)) := by
    apply div_pos (mul_pos hbc (by linarith)) hp
  linarith

theorem sq_between {lo hi w : ℝ} (h0 : 0 < lo) (h1 : lo ≤ w) (h2 : w ≤ hi) : lo ^ 2 ≤ w ^ 2 ∧ w ^ 2 ≤ hi ^ 2 :=
  ⟨by gcongr, by have := h0.trans_le h1; gcongr⟩

/-- a real function taking the place of the model's formula on a range, decreasing and bounded there -/
structure Good (g : XF → XF) (lo hi : ℝ) (f : ℝ → ℝ) : Prop where
  eq : ∀ w, lo ≤ w → w ≤ hi → g (fin w) = fin (f w)
  anti : ∀ w w', lo ≤ w → w < w' → w' ≤ hi → f w' < f w
  low : 1 < f hi
  high : f lo < 3

theorem Good.bounds {g : XF → XF} {lo hi : ℝ} {f : ℝ → ℝ} (h : Good g lo hi f) {w : ℝ} (h1 : lo ≤ w) (h2 : w ≤ hi) :
    1 < f w ∧ f w < 3 := by
  constructor
  · rcases eq_or_lt_of_le h2 with e | e
    · rw [e]; exact h.low
    · exact h.low.trans (h.anti w hi h1 e le_rfl)
  · rcases eq_or_lt_of_le h1 with e | e
    · rw [← e]; exact h.high
    · exact (h.anti lo w le_rfl e h2).trans h.high

/-- passing to the square root -/
theorem Good.sqrt {g : XF → XF} {lo hi : ℝ} {f : ℝ → ℝ} 
    (eq : ∀ w, lo ≤ w → w ≤ hi → g (fin w) = fin (f w))
    (anti : ∀ w w', lo ≤ w → w < w' → w' ≤ hi → f w' < f w) (low : 1 < f hi) (high : f lo < 9) :
    Good (fun w => XF.sqrt (g w)) lo hi (fun w => Real.sqrt (f w)) := by
  have hpos : ∀ w, lo ≤ w → w ≤ hi → 1 < f w := by
    intro w h1 h2
    rcases eq_or_lt_of_le h2 with e | e
    · rw [e]; exact low
    · exact low.trans (anti w hi h1 e le_rfl)
  refine ⟨fun w h1 h2 => ?_, fun w w' h1 h h2 => ?_, ?_, ?_⟩
  · simp only [eq w h1 h2]
    have := hpos w h1 h2
    simp only [XF.sqrt]
    rw [if_pos (by linarith)]
  · exact Real.sqrt_lt_sqrt (by linarith [hpos w' (h1.trans h.le) h2]) (anti w w' h1 h h2)
  · rw [Real.lt_sqrt (by norm_num)]; linarith
  · rw [Real.sqrt_lt' (by norm_num)]; linarith

theorem good_polystyrene : Good polystyrene 0.4368 1.052 (fun w => Real.sqrt (1 + osc 1.4435 0.020216 w)) := by
  refine Good.sqrt (g := fun w => sellmeier 1.4435 0.020216 w + fin 1) ?_ ?_ ?_ ?_
  · intro w h1 h2
    have b := sq_between (by norm_num) h1 h2
    norm_num at b
    rw [sellmeier_eq _ _ _ (by norm_num; linarith), fin_add, add_comm]
  · intro w w' h1 h h2
    have b := sq_between (by norm_num) h1 (h.le.trans h2)
    have b' := sq_between (by norm_num) (h1.trans h.le) h2
    norm_num at b b' h1
    have hw : w ^ 2 < w' ^ 2 := by gcongr
    have := osc_lt (b := 1.4435) (c := 0.020216) (w := w) (w' := w') (by norm_num) (by norm_num) (Or.inl ⟨by norm_num; linarith, by norm_num; linarith⟩) hw
    linarith
  · norm_num [osc]
  · norm_num [osc]

theorem good_zirconia : Good zirconia 0.405 0.635 (fun w => Real.sqrt (1 + osc 3.3037 (0.1987971 ^ 2) w)) := by
  refine Good.sqrt (g := fun w => fin 1 + sellmeier 3.3037 (0.1987971 ^ 2) w) ?_ ?_ ?_ ?_
  · intro w h1 h2
    have b := sq_between (by norm_num) h1 h2
    norm_num at b
    rw [sellmeier_eq _ _ _ (by norm_num; linarith), fin_add]
  · intro w w' h1 h h2
    have b := sq_between (by norm_num) h1 (h.le.trans h2)
    have b' := sq_between (by norm_num) (h1.trans h.le) h2
    norm_num at b b' h1
    have hw : w ^ 2 < w' ^ 2 := by gcongr
    have := osc_lt (b := 3.3037) (c := 0.1987971 ^ 2) (w := w) (w' := w') (by norm_num) (by norm_num) (Or.inl ⟨by norm_num; linarith, by norm_num; linarith⟩) hw
    linarith
  · norm_num [osc]
  · norm_num [osc]

theorem good_brookite : Good brookite 0.43 0.71 (fun w => Real.sqrt (3.9858 + osc 2.1036 (0.287 ^ 2) w - 0.18 * w ^ 2)) := by
  refine Good.sqrt (g := fun w => fin 2.9858 + sellmeier 2.1036 (0.287 ^ 2) w - fin 0.18 * w * w + fin 1) ?_ ?_ ?_ ?_
  · intro w h1 h2
    have b := sq_between (by norm_num) h1 h2
    norm_num at b
    rw [sellmeier_eq _ _ _ (by norm_num; linarith)]
    simp only [fin_add, fin_mul, fin_sub]
    congr 1; ring
  · intro w w' h1 h h2
    have b := sq_between (by norm_num) h1 (h.le.trans h2)
    have b' := sq_between (by norm_num) (h1.trans h.le) h2
    norm_num at b b' h1
    have hw : w ^ 2 < w' ^ 2 := by gcongr
    have := osc_lt (b := 2.1036) (c := 0.287 ^ 2) (w := w) (w' := w') (by norm_num) (by norm_num) (Or.inl ⟨by norm_num; linarith, by norm_num; linarith⟩) hw
    linarith
  · norm_num [osc]
  · norm_num [osc]

theorem good_rutile : Good rutile 0.43 1.53 (fun w => Real.sqrt (5.913 + 0.2441 / (w ^ 2 - 0.0803))) := by
  refine Good.sqrt (g := fun w => fin 5.913 + fin 0.2441 / (w * w - fin 0.0803)) ?_ ?_ ?_ ?_
  · intro w h1 h2
    have b := sq_between (by norm_num) h1 h2
    norm_num at b
    simp only [fin_mul, fin_sub]
    rw [fin_div _ (by norm_num; nlinarith), fin_add, sq]
  · intro w w' h1 h h2
    have b := sq_between (by norm_num) h1 (h.le.trans h2)
    have b' := sq_between (by norm_num) (h1.trans h.le) h2
    norm_num at b b' h1
    have hw : w ^ 2 < w' ^ 2 := by gcongr
    have : (0.2441 : ℝ) / (w' ^ 2 - 0.0803) < 0.2441 / (w ^ 2 - 0.0803) := by
      apply div_lt_div_of_pos_left (by norm_num) (by norm_num; linarith) (by linarith)
    linarith
  · norm_num
  · norm_num

theorem good_fused : Good fusedSilica 0.21 3.71 (fun w => Real.sqrt (1 + osc 0.6961663 (0.0684043 ^ 2) w
      + osc 0.4079426 (0.1162414 ^ 2) w + osc 0.8974794 (9.896161 ^ 2) w)) := by
  refine Good.sqrt (g := fun w => fin 1 + sellmeier 0.6961663 (0.0684043 ^ 2) w + sellmeier 0.4079426 (0.1162414 ^ 2) w +
    sellmeier 0.8974794 (9.896161 ^ 2) w) ?_ ?_ ?_ ?_
  · intro w h1 h2
    have b := sq_between (by norm_num) h1 h2
    norm_num at b
    rw [sellmeier_eq _ _ _ (by norm_num; linarith), sellmeier_eq _ _ _ (by norm_num; linarith),
      sellmeier_eq _ _ _ (by apply ne_of_lt; norm_num; linarith)]
    simp only [fin_add]
  · intro w w' h1 h h2
    have b := sq_between (by norm_num) h1 (h.le.trans h2)
    have b' := sq_between (by norm_num) (h1.trans h.le) h2
    norm_num at b b' h1
    have hw : w ^ 2 < w' ^ 2 := by gcongr
    have t1 := osc_lt (b := 0.6961663) (c := 0.0684043 ^ 2) (w := w) (w' := w') (by norm_num) (by norm_num) (Or.inl ⟨by norm_num; linarith, by norm_num; linarith⟩) hw
    have t2 := osc_lt (b := 0.4079426) (c := 0.1162414 ^ 2) (w := w) (w' := w') (by norm_num) (by norm_num) (Or.inl ⟨by norm_num; linarith, by norm_num; linarith⟩) hw
    have t3 := osc_lt (b := 0.8974794) (c := 9.896161 ^ 2) (w := w) (w' := w') (by norm_num) (by norm_num) (Or.inr ⟨by norm_num; linarith, by norm_num; linarith⟩) hw
    linarith
  · norm_num [osc]
  · norm_num [osc]

theorem good_water : Good water 0.2 1.1 (fun w => Real.sqrt (1 + osc 0.5684027565 0.005101829712 w
      + osc 0.1726177391 0.01821153936 w + osc 0.02086189578 0.02620722293 w + osc 0.1130748688 10.69792721 w)) := by
  refine Good.sqrt (g := fun w => sellmeier 5.684027565e-1 5.101829712e-3 w + sellmeier 1.726177391e-1 1.821153936e-2 w +
    sellmeier 2.086189578e-2 2.620722293e-2 w + sellmeier 1.130748688e-1 1.069792721e1 w + fin 1) ?_ ?_ ?_ ?_
  · intro w h1 h2
    have b := sq_between (by norm_num) h1 h2
    norm_num at b
    rw [sellmeier_eq _ _ _ (by norm_num; linarith), sellmeier_eq _ _ _ (by norm_num; linarith),
      sellmeier_eq _ _ _ (by norm_num; linarith), sellmeier_eq _ _ _ (by apply ne_of_lt; norm_num; linarith)]
    simp only [fin_add]
    congr 1
    norm_num
    ring
  · intro w w' h1 h h2
    have b := sq_between (by norm_num) h1 (h.le.trans h2)
    have b' := sq_between (by norm_num) (h1.trans h.le) h2
    norm_num at b b' h1
    have hw : w ^ 2 < w' ^ 2 := by gcongr
    have t1 := osc_lt (b := 0.5684027565) (c := 0.005101829712) (w := w) (w' := w') (by norm_num) (by norm_num) (Or.inl ⟨by norm_num; linarith, by norm_num; linarith⟩) hw
    have t2 := osc_lt (b := 0.1726177391) (c := 0.01821153936) (w := w) (w' := w') (by norm_num) (by norm_num) (Or.inl ⟨by norm_num; linarith, by norm_num; linarith⟩) hw
    have t3 := osc_lt (b := 0.02086189578) (c := 0.02620722293) (w := w) (w' := w') (by norm_num) (by norm_num) (Or.inl ⟨by norm_num; linarith, by norm_num; linarith⟩) hw
    have t4 := osc_lt (b := 0.1130748688) (c := 10.69792721) (w := w) (w' := w') (by norm_num) (by norm_num) (Or.inr ⟨by norm_num; linarith, by norm_num; linarith⟩) hw
    linarith
  · norm_num [osc]
  · norm_num [osc]

theorem good_soda : Good sodaLimeGlass 0.31 4.6 (fun w => 1.5130 - 0.003169 * w ^ 2 + 0.003962 / w ^ 2) := by
  refine ⟨?_, ?_, by norm_num, by norm_num⟩
  · intro w h1 h2
    have h0 : 0 < w := by norm_num at h1; linarith
    unfold sodaLimeGlass
    simp only [fin_mul, fin_sub]
    rw [fin_div _ (by positivity), fin_add]
    congr 1; ring
  · intro w w' h1 h h2
    have h0 : 0 < w := by norm_num at h1; linarith
    have hw : w ^ 2 < w' ^ 2 := by gcongr
    have : (0.003962 : ℝ) / w' ^ 2 < 0.003962 / w ^ 2 := div_lt_div_of_pos_left (by norm_num) (by positivity) hw
    linarith

theorem good_ethanol : Good ethanol 0.2 10 (fun w => 1.35265 + 0.00306 / w ^ 2 + 0.00002 / w ^ 4) := by
  refine ⟨?_, ?_, by norm_num, by norm_num⟩
  · intro w h1 h2
    have h0 : 0 < w := by norm_num at h1; linarith
    unfold ethanol
    simp only [fin_mul]
    rw [fin_div _ (by positivity), fin_div _ (by positivity), fin_add, fin_add]
    congr 1; ring
  · intro w w' h1 h h2
    have h0 : 0 < w := by norm_num at h1; linarith
    have : (0.00306 : ℝ) / w' ^ 2 < 0.00306 / w ^ 2 := div_lt_div_of_pos_left (by norm_num) (by positivity) (by gcongr)
    have : (0.00002 : ℝ) / w' ^ 4 < 0.00002 / w ^ 4 := div_lt_div_of_pos_left (by norm_num) (by positivity) (by gcongr)
    linarith

theorem good_anatase : Good anatase 0.5 1.7 (fun w => 2.1526 + 0.041155 / w ^ 2 + 0.0021798 / w ^ 4) := by
  refine ⟨?_, ?_, by norm_num, by norm_num⟩
  · intro w h1 h2
    have h0 : 0 < w := by norm_num at h1; linarith
    unfold anatase
    simp only [fin_mul]
    rw [fin_div _ (by positivity), fin_div _ (by positivity), fin_add, fin_add]
    congr 1; ring
  · intro w w' h1 h h2
    have h0 : 0 < w := by norm_num at h1; linarith
    have : (0.041155 : ℝ) / w' ^ 2 < 0.041155 / w ^ 2 := div_lt_div_of_pos_left (by norm_num) (by positivity) (by gcongr)
    have : (0.0021798 : ℝ) / w' ^ 4 < 0.0021798 / w ^ 4 := div_lt_div_of_pos_left (by norm_num) (by positivity) (by gcongr)
    linarith

/-- the inverse powers in the formula for pmma, as a function of u = 1/w² -/
noncomputable def pmmaP (u : ℝ) : ℝ := 0.023678 * u - 0.0042137 * u ^ 2 + 0.00073417 * u ^ 3 - 0.000045042 * u ^ 4

/-- it increases with slope at least 0.012 -/
theorem pmmaP_slope {u v : ℝ} (h0 : 0 ≤ u) (h : u < v) (h1 : v ≤ 6) : 0.012 * (v - u) ≤ pmmaP v - pmmaP u := by
  have hd : ∀ x : ℝ, HasDerivAt (fun x => pmmaP x - 0.012 * x)
      (0.023678 - 0.0042137 * (2 * x) + 0.00073417 * (3 * x ^ 2) - 0.000045042 * (4 * x ^ 3) - 0.012) x := by
    intro x
    unfold pmmaP
    have a1 := (hasDerivAt_id x).const_mul (0.023678 : ℝ)
    have a2 := (hasDerivAt_pow 2 x).const_mul (0.0042137 : ℝ)
    have a3 := (hasDerivAt_pow 3 x).const_mul (0.00073417 : ℝ)
    have a4 := (hasDerivAt_pow 4 x).const_mul (0.000045042 : ℝ)
    have a5 := (hasDerivAt_id x).const_mul (0.012 : ℝ)
    have := ((((a1.sub a2).add a3).sub a4).sub a5)
    exact HasDerivAt.congr_deriv this (by norm_num)
  have hm : MonotoneOn (fun x => pmmaP x - 0.012 * x) (Set.Icc 0 6) := by
    apply monotoneOn_of_deriv_nonneg (convex_Icc 0 6)
    · exact fun x _ => (hd x).continuousAt.continuousWithinAt
    · exact fun x _ => (hd x).differentiableAt.differentiableWithinAt
    · intro x hx
      rw [interior_Icc] at hx
      rw [(hd x).deriv]
      have g1 := hx.1
      have g2 := hx.2
      nlinarith [mul_nonneg g1.le (sq_nonneg (x - 3)), mul_nonneg (sub_nonneg.mpr g2.le) (sq_nonneg (x - 3)),
        mul_nonneg (sub_nonneg.mpr g2.le) (sq_nonneg (x - 2)), mul_nonneg g1.le (sq_nonneg (x - 6)), sq_nonneg (x - 3)]
  have := hm ⟨h0, h.le.trans h1⟩ ⟨h0.trans h.le, h1⟩ h.le
  simp only at this
  linarith

theorem good_pmma : Good pmma 0.42 1.62 (fun w => Real.sqrt (2.1778 + 0.0061209 * w ^ 2 - 0.0015004 * w ^ 4 + 0.023678 / w ^ 2
      - 0.0042137 / w ^ 4 + 0.00073417 / w ^ 6 - 0.000045042 / w ^ 8)) := by
  refine Good.sqrt (g := fun w => fin 2.1778 + fin 6.1209e-3 * w * w - fin 1.5004e-3 * w * w * w * w + fin 2.3678e-2 / w / w
    - fin 4.2137e-3 / w / w / w / w + fin 7.3417e-4 / w / w / w / w / w / w
    - fin 4.5042e-5 / w / w / w / w / w / w / w / w) ?_ ?_ ?_ ?_
  · intro w h1 h2
    have h0 : w ≠ 0 := by norm_num at h1; linarith
    simp only [fin_mul, fin_div _ h0, fin_add, fin_sub]
    congr 1
    field_simp
  · intro w w' h1 h h2
    have b := sq_between (by norm_num) h1 (h.le.trans h2)
    have b' := sq_between (by norm_num) (h1.trans h.le) h2
    norm_num at b b' h1
    have hw : w ^ 2 < w' ^ 2 := by gcongr
    have h0 : 0 < w := by linarith
    have h0' : 0 < w' := by linarith
    have hP : ∀ v : ℝ, 0 < v → 0.023678 / v ^ 2 - 0.0042137 / v ^ 4 + 0.00073417 / v ^ 6 - 0.000045042 / v ^ 8
        = pmmaP (1 / v ^ 2) := by
      intro v hv; unfold pmmaP; field_simp
    have hu : 1 / w' ^ 2 < 1 / w ^ 2 := one_div_lt_one_div_of_lt (by positivity) hw
    have hu6 : 1 / w ^ 2 ≤ 6 := by rw [div_le_iff₀ (by positivity)]; linarith [b.1]
    have sl := pmmaP_slope (u := 1 / w' ^ 2) (v := 1 / w ^ 2) (by positivity) hu hu6
    have e1 := hP w h0
    have e2 := hP w' h0'
    have d : 1 / w ^ 2 - 1 / w' ^ 2 = (w' ^ 2 - w ^ 2) / (w ^ 2 * w' ^ 2) := by field_simp
    have key : 0.0061209 * (w' ^ 2 - w ^ 2) - 0.0015004 * (w' ^ 4 - w ^ 4) < 0.012 * (1 / w ^ 2 - 1 / w' ^ 2) := by
      rw [d, ← mul_div_assoc, lt_div_iff₀ (by positivity)]
      have fac : (0.0061209 * (w' ^ 2 - w ^ 2) - 0.0015004 * (w' ^ 4 - w ^ 4)) * (w ^ 2 * w' ^ 2)
          = (w' ^ 2 - w ^ 2) * ((0.0061209 - 0.0015004 * (w' ^ 2 + w ^ 2)) * (w ^ 2 * w' ^ 2)) := by ring
      rw [fac, mul_comm (0.012 : ℝ)]
      apply mul_lt_mul_of_pos_left _ (by linarith)
      set p := w * w' with hp
      have hp0 : 0 < p := by positivity
      have e3 : w ^ 2 * w' ^ 2 = p ^ 2 := by rw [hp]; ring
      have am : 2 * p ≤ w' ^ 2 + w ^ 2 := by rw [hp]; nlinarith [sq_nonneg (w' - w)]
      rw [e3]
      have : (0.0061209 - 0.0015004 * (w' ^ 2 + w ^ 2)) * p ^ 2 ≤ (0.0061209 - 0.0015004 * (2 * p)) * p ^ 2 := by
        apply mul_le_mul_of_nonneg_right _ (sq_nonneg p)
        nlinarith
      nlinarith [mul_nonneg hp0.le (sq_nonneg (p - 1.36)), sq_nonneg (p - 1.36)]
    linarith
  · norm_num
  · norm_num

theorem published_good (m : String) (lo hi : ℝ) (f : ℝ → ℝ) (h : published m = some (lo, hi, f)) :
    ∃ g, nDict.lookup m = some g ∧ m ≠ "data" ∧ Good g lo hi f := by
  unfold published at h
  split at h
  all_goals (first | (simp only [Option.some.injEq, Prod.mk.injEq] at h; obtain ⟨rfl, rfl, rfl⟩ := h) | cases h)
  · exact ⟨water, rfl, by decide, good_water⟩
  · exact ⟨polystyrene, rfl, by decide, good_polystyrene⟩
  · exact ⟨pmma, rfl, by decide, good_pmma⟩
  · exact ⟨rutile, rfl, by decide, good_rutile⟩
  · exact ⟨fusedSilica, rfl, by decide, good_fused⟩
  · exact ⟨sodaLimeGlass, rfl, by decide, good_soda⟩
  · exact ⟨zirconia, rfl, by decide, good_zirconia⟩
  · exact ⟨ethanol, rfl, by decide, good_ethanol⟩
  · exact ⟨brookite, rfl, by decide, good_brookite⟩
  · exact ⟨anatase, rfl, by decide, good_anatase⟩

/-- C53.  At every wavelength in the range of validity of a tabulated material, the library returns the value of the published
dispersion formula, whatever data arrays are passed along; it is a real index between 1 and 3, and decreases strictly with the
wavelength (normal dispersion). -/
theorem C53_tabulated_material (m : String) (lo hi : ℝ) (f : ℝ → ℝ) (h : published m = some (lo, hi, f))
    (ys xs : Option (List ℝ)) (unit : ℝ) :
    (∀ w, lo ≤ w → w ≤ hi → n m w ys xs unit = .ok (fin (f w)) ∧ 1 < f w ∧ f w < 3) ∧
    (∀ w w', lo ≤ w → w < w' → w' ≤ hi → f w' < f w) := by
  obtain ⟨g, hl, hd, hg⟩ := published_good m lo hi f h
  refine ⟨fun w h1 h2 => ⟨?_, hg.bounds h1 h2⟩, hg.anti⟩
  unfold n
  rw [if_neg hd, hl]
  simp only [hg.eq w h1 h2]

/-- C53.  Vacuum has index 1 at every wavelength. -/
theorem C53_vacuum (w : ℝ) (hw : 0 < w) (ys xs : Option (List ℝ)) (unit : ℝ) : n "vacuum" w ys xs unit = .ok (fin 1) := by
  unfold n
  rw [if_neg (by decide)]
  have : nDict.lookup "vacuum" = some vacuum := rfl
  rw [this]
  simp only [vacuum, fin_mul, fin_div _ hw.ne', one_mul, div_self hw.ne']

/-- C53.  Everything else is a KeyError: a name that is neither "data", nor "vacuum", nor a tabulated material, and "data"
without both arrays. -/
theorem C53_unknown_material (m : String) (w : ℝ) (ys xs : Option (List ℝ)) (unit : ℝ) :
    (m ≠ "data" → m ≠ "vacuum" → published m = none → n m w ys xs unit = .error .keyError) ∧
    (ys = none ∨ xs = none → n "data" w ys xs unit = .error .keyError) := by
  constructor
  · intro h1 h2 h3
    unfold n
    rw [if_neg h1]
    have : nDict.lookup m = none := by
      unfold published at h3
      split at h3 <;> cases h3
      rw [List.lookup_eq_none_iff]
      intro p hp
      simp only [nDict, List.mem_cons, List.not_mem_nil, or_false] at hp
      rcases hp with rfl | rfl | rfl | rfl | rfl | rfl | rfl | rfl | rfl | rfl | rfl <;> simp_all
    rw [this]
  · intro h
    unfold n
    rw [if_pos rfl]
    rcases h with h | h <;> subst h
    · simp
    · cases ys <;> simp

example : published "pmma" ≠ none ∧ (0.42 : ℝ) ≤ 0.5 ∧ (0.5 : ℝ) ≤ 1.62 := ⟨by simp [published], by norm_num, by norm_num⟩
example : published "glass" = none ∧ "glass" ≠ "data" ∧ "glass" ≠ "vacuum" := ⟨by simp [published], by decide, by decide⟩

end Verif.Props
