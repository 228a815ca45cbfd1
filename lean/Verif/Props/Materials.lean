import Verif.Model.Index
import Mathlib.Tactic.FieldSimp
import Mathlib.Tactic.Positivity
import Mathlib.Tactic.Ring
import Mathlib.Tactic.GCongr

/-!
# C52, C53: refractive indices of materials
-/

namespace Verif.Props
open Verif.Index Verif.XF
open Verif (XF PyErr)

/-! ### C52 -/

/-- the six series and the number of oils of each, as documented in the docstring of `n_cargille` -/
def oilCount : String → Option ℕ
  | "AAA" => some 20
  | "AA" => some 30
  | "A" => some 91
  | "B" => some 30
  | "E" => some 29
  | "acrylic" => some 1
  | _ => none

/-- the three tables of a known series have the documented number of entries -/
def tablesOk : Prop := ∀ s, match series s, oilCount s with
  | some (c, d, e), some k => c.length = k ∧ d.length = k ∧ e.length = k
  | none, none => True
  | _, _ => False

theorem tables_ok : tablesOk := by
  intro s
  by_cases h1 : s = "AAA"
  · subst h1; exact ⟨by decide, by decide, by decide⟩
  by_cases h2 : s = "AA"
  · subst h2; exact ⟨by decide, by decide, by decide⟩
  by_cases h3 : s = "A"
  · subst h3; exact ⟨by decide, by decide, by decide⟩
  by_cases h4 : s = "B"
  · subst h4; exact ⟨by decide, by decide, by decide⟩
  by_cases h5 : s = "E"
  · subst h5; exact ⟨by decide, by decide, by decide⟩
  by_cases h6 : s = "acrylic"
  · subst h6; exact ⟨by decide, by decide, by decide⟩
  have a : series s = none := by
    unfold series
    split <;> first | rfl | contradiction
  have b : oilCount s = none := by
    unfold oilCount
    split <;> first | rfl | contradiction
  simp only [a, b]

theorem pyIndex_isSome (l : List ℤ) (i : ℤ) : (pyIndex l i).isSome ↔ -(l.length : ℤ) ≤ i ∧ i < l.length := by
  unfold pyIndex
  by_cases h : 0 ≤ i
  · rw [if_pos h]
    simp only [isSome_getElem?]
    omega
  · rw [if_neg h]
    by_cases h2 : 0 ≤ (l.length : ℤ) + i
    · rw [if_pos h2]; simp only [isSome_getElem?]; omega
    · rw [if_neg h2]; simp; omega

theorem nCargille_ok_iff (i : ℤ) (s : String) (w : ℝ) :
    (∃ x, nCargille i s w = .ok x) ↔ ∃ k, oilCount s = some k ∧ -(k : ℤ) ≤ i ∧ i < k := by
  have ht := tables_ok s
  unfold nCargille
  split
  · next h =>
    rw [h] at ht
    split at ht
    · next h1 _ => cases h1
    · next h2 => rw [h2]; simp
    · exact ht.elim
  · next cs ds es h =>
    rw [h] at ht
    split at ht
    · next c d e k h1 h2 =>
      cases h1
      obtain ⟨l1, l2, l3⟩ := ht
      rw [h2]
      have i1 := pyIndex_isSome cs i
      have i2 := pyIndex_isSome ds i
      have i3 := pyIndex_isSome es i
      rw [l1] at i1; rw [l2] at i2; rw [l3] at i3
      by_cases hi : -(k : ℤ) ≤ i ∧ i < k
      · obtain ⟨a, ha⟩ := Option.isSome_iff_exists.mp (i1.mpr hi)
        obtain ⟨b, hb⟩ := Option.isSome_iff_exists.mp (i2.mpr hi)
        obtain ⟨c, hc⟩ := Option.isSome_iff_exists.mp (i3.mpr hi)
        rw [ha, hb, hc]
        simp [hi]
      · have ha : pyIndex cs i = none := by
          rw [← Option.not_isSome_iff_eq_none]; exact fun h => hi (i1.mp h)
        rw [ha]
        simp
        omega
    · next h1 _ => cases h1
    · exact ht.elim

theorem nCargille_error (i : ℤ) (s : String) (w : ℝ) (e : PyErr) (h : nCargille i s w = .error e) : e = .valueError := by
  unfold nCargille at h
  split at h
  · cases h; rfl
  · split at h
    · cases h
    · cases h; rfl

/-- C52, argument checks, what holds: an unknown series, or a cardinal number that is too large for the series, is rejected with
a ValueError; every cardinal number from 0 to the documented maximum is accepted. -/
theorem C52_cargille_arguments_partial (i : ℤ) (s : String) (w : ℝ) :
    (oilCount s = none → nCargille i s w = .error .valueError) ∧
    (∀ k, oilCount s = some k → (k : ℤ) ≤ i → nCargille i s w = .error .valueError) ∧
    (∀ k, oilCount s = some k → 0 ≤ i → i < k → ∃ x, nCargille i s w = .ok x) := by
  have hiff := nCargille_ok_iff i s w
  have herr : (¬ ∃ x, nCargille i s w = .ok x) → nCargille i s w = .error .valueError := by
    intro h
    cases hn : nCargille i s w with
    | ok x => exact absurd ⟨x, hn⟩ h
    | error e => rw [nCargille_error i s w e hn]
  refine ⟨fun h => herr ?_, fun k hk hi => herr ?_, fun k hk h0 hi => hiff.mpr ⟨k, hk, by omega, hi⟩⟩
  · rw [hiff]; rintro ⟨k, hk, _⟩; rw [h] at hk; cases hk
  · rw [hiff]; rintro ⟨k', hk', _, h2⟩; rw [hk] at hk'; cases hk'; omega

/-- C52, refuted for negative cardinal numbers: -1 is not a cardinal number of any series, and is accepted. -/
theorem C52_negative_accepted_refuted (w : ℝ) : ∃ x, nCargille (-1) "A" w = .ok x :=
  (nCargille_ok_iff (-1) "A" w).mpr ⟨91, rfl, by norm_num, by norm_num⟩

/-- the Cauchy law with the three tabulated coefficients of an oil -/
noncomputable def cauchy (c d e : ℤ) (w : ℝ) : ℝ :=
  c / 10 ^ 7 + d / 10 * 10 ^ (-8 : ℤ) / w ^ 2 + e * 10 ^ (-16 : ℤ) / w ^ 4

/-- C52, the law, what holds: the value is that of the Cauchy law without the third term. -/
theorem C52_cargille_value_partial (i : ℕ) (s : String) (w : ℝ) (hw : 0 < w) (cs ds es : List ℤ) (c d e : ℤ)
    (hs : series s = some (cs, ds, es)) (hc : cs[i]? = some c) (hd : ds[i]? = some d) (he : es[i]? = some e) :
    nCargille i s w = .ok (fin (cauchy c d e w - e * 10 ^ (-16 : ℤ) / w ^ 4)) := by
  unfold nCargille
  rw [hs]
  have hp : ∀ (l : List ℤ), pyIndex l i = l[i]? := by
    intro l; unfold pyIndex; rw [if_pos (by omega)]; simp
  simp only [hp, hc, hd, he]
  rw [fin_mul, fin_div _ (by positivity), fin_add]
  congr 2
  unfold cauchy
  rw [← sq]; ring

/-- C52, refuted: no oil with a non-zero third coefficient gets the value of the three-coefficient law, at any wavelength. -/
theorem C52_cauchy_law_refuted (i : ℕ) (s : String) (w : ℝ) (hw : 0 < w) (cs ds es : List ℤ) (c d e : ℤ)
    (hs : series s = some (cs, ds, es)) (hc : cs[i]? = some c) (hd : ds[i]? = some d) (he : es[i]? = some e)
    (hne : e ≠ 0) : nCargille i s w ≠ .ok (fin (cauchy c d e w)) := by
  rw [C52_cargille_value_partial i s w hw cs ds es c d e hs hc hd he]
  intro h
  have h2 := Except.ok.inj h
  rw [fin_inj] at h2
  have h3 : (e : ℝ) * 10 ^ (-16 : ℤ) / w ^ 4 = 0 := by linarith
  have h4 : (e : ℝ) ≠ 0 := by exact_mod_cast hne
  have h5 : (e : ℝ) * 10 ^ (-16 : ℤ) / w ^ 4 ≠ 0 := by positivity
  exact h5 h3

/-- the bounds on the coefficients used below: 1.29 < c < 1.66 and 0 < d -/
def coeffOk (cs ds : List ℤ) : Bool :=
  cs.all (fun c => decide (12900000 < c) && decide (c < 16600000)) && ds.all (fun d => decide (0 < d) && decide (d < 12200000))

theorem series_coeffOk (s : String) (cs ds es : List ℤ) (hs : series s = some (cs, ds, es)) : coeffOk cs ds = true := by
  unfold series at hs
  split at hs <;> first | (cases hs; decide) | cases hs

/-- C52.  Every accepted oil has an index between 1.29 and 2 at every wavelength from 0.3 micrometres on, and the index
decreases with the wavelength. -/
theorem C52_cargille_physical (i : ℤ) (s : String) (x : XF) (w : ℝ) (hw : 0.3 ≤ w) (h : nCargille i s w = .ok x) :
    ∃ r, x = fin r ∧ 1.29 < r ∧ r < 2 ∧
      ∀ w', w < w' → ∃ r', nCargille i s w' = .ok (fin r') ∧ r' < r := by
  have hval : ∃ c d : ℤ, 12900000 < c ∧ c < 16600000 ∧ 0 < d ∧ d < 12200000 ∧
      ∀ v : ℝ, 0 < v → nCargille i s v = .ok (fin (c / 10 ^ 7 + d / 10 * 10 ^ (-8 : ℤ) / (v * v))) := by
    unfold nCargille at h
    split at h
    · cases h
    · next cs ds es hs =>
      split at h
      · next c d e hc hd he =>
        have hok := series_coeffOk s cs ds es hs
        unfold coeffOk at hok
        rw [Bool.and_eq_true, List.all_eq_true, List.all_eq_true] at hok
        have hmem : ∀ (l : List ℤ) (a : ℤ), pyIndex l i = some a → a ∈ l := by
          intro l a ha
          unfold pyIndex at ha
          split at ha
          · exact List.mem_of_getElem? ha
          · split at ha
            · exact List.mem_of_getElem? ha
            · cases ha
        have h1 := hok.1 c (hmem _ _ hc)
        have h2 := hok.2 d (hmem _ _ hd)
        simp only [Bool.and_eq_true, decide_eq_true_eq] at h1 h2
        refine ⟨c, d, h1.1, h1.2, h2.1, h2.2, fun v hv => ?_⟩
        unfold nCargille
        rw [hs]
        simp only [hc, hd, he]
        rw [fin_mul, fin_div _ (by positivity), fin_add]
      · cases h
  obtain ⟨c, d, c1, c2, d1, d2, hv⟩ := hval
  have hw0 : (0:ℝ) < w := by linarith
  have e := hv w hw0
  rw [h] at e
  have c1' : (12900000 : ℝ) < c := by exact_mod_cast c1
  have c2' : (c : ℝ) < 16600000 := by exact_mod_cast c2
  have d1' : (0 : ℝ) < d := by exact_mod_cast d1
  have d2' : (d : ℝ) < 12200000 := by exact_mod_cast d2
  have h8 : ((10:ℝ) ^ (-8 : ℤ)) = 1 / 100000000 := by norm_num
  refine ⟨_, Except.ok.inj e, ?_, ?_, ?_⟩
  · have : 0 < (d:ℝ) / 10 * 10 ^ (-8 : ℤ) / (w * w) := by positivity
    norm_num at this ⊢
    linarith
  · have hww : (0.09 : ℝ) ≤ w * w := by nlinarith
    have : (d:ℝ) / 10 * 10 ^ (-8 : ℤ) / (w * w) ≤ 0.136 := by
      rw [div_le_iff₀ (by positivity), h8]; nlinarith
    norm_num at this ⊢
    linarith
  · intro w' hw'
    refine ⟨_, hv w' (by linarith), ?_⟩
    have : (d:ℝ) / 10 * 10 ^ (-8 : ℤ) / (w' * w') < (d:ℝ) / 10 * 10 ^ (-8 : ℤ) / (w * w) := by
      apply div_lt_div_of_pos_left (by positivity) (by positivity)
      nlinarith
    linarith

/-- strictly increasing coefficients at 1/w² = `u`, for `u` between 1 and 11 (wavelengths 0.3 to 1 micrometre): consecutive
entries checked at both ends, in units of 10^-9 -/
def orderedOk : List ℤ → List ℤ → Bool
  | c :: c' :: cs, d :: d' :: ds =>
    decide (0 < (c' - c) * 100 + (d' - d) * 1) && decide (0 < (c' - c) * 100 + (d' - d) * 12) && orderedOk (c' :: cs) (d' :: ds)
  | _, _ => true

theorem orderedOk_spec (cs ds : List ℤ) (h : orderedOk cs ds = true) (i : ℕ) (c c' d d' : ℤ)
    (hc : cs[i]? = some c) (hc' : cs[i+1]? = some c') (hd : ds[i]? = some d) (hd' : ds[i+1]? = some d') :
    0 < (c' - c) * 100 + (d' - d) * 1 ∧ 0 < (c' - c) * 100 + (d' - d) * 12 := by
  induction i generalizing cs ds with
  | zero =>
    match cs, ds, hc, hc', hd, hd', h with
    | a :: a' :: cs, b :: b' :: ds, hc, hc', hd, hd', h =>
      simp at hc hc' hd hd'
      subst hc hc' hd hd'
      simp [orderedOk] at h
      constructor <;> linarith [h.1.1, h.1.2]
  | succ i ih =>
    match cs, ds, hc, hc', hd, hd', h with
    | a :: a' :: cs, b :: b' :: ds, hc, hc', hd, hd', h =>
      simp only [orderedOk, Bool.and_eq_true] at h
      exact ih (a' :: cs) (b' :: ds) h.2 (by simpa using hc) (by simpa using hc') (by simpa using hd) (by simpa using hd')

theorem series_ordered (s : String) (cs ds es : List ℤ) (hs : series s = some (cs, ds, es)) : orderedOk cs ds = true := by
  unfold series at hs
  split at hs <;> first | (cases hs; decide) | cases hs

/-- C52.  Within a series, at every visible wavelength (0.3 to 1 micrometre), the next cardinal number is an oil of larger
index. -/
theorem C52_cargille_ordered (i : ℕ) (s : String) (w : ℝ) (h1 : 0.3 ≤ w) (h2 : w ≤ 1) (k : ℕ) (hk : oilCount s = some k)
    (hi : i + 1 < k) :
    ∃ r r', nCargille i s w = .ok (fin r) ∧ nCargille (i + 1 : ℕ) s w = .ok (fin r') ∧ r < r' := by
  have ht := tables_ok s
  cases hs : series s with
  | none => rw [hs, hk] at ht; exact ht.elim
  | some t =>
    obtain ⟨cs, ds, es⟩ := t
    rw [hs, hk] at ht
    obtain ⟨l1, l2, l3⟩ := ht
    have g : ∀ (l : List ℤ) (n : ℕ), n < l.length → ∃ a, l[n]? = some a := fun l n h => ⟨l[n], by simp [h]⟩
    obtain ⟨c, hc⟩ := g cs i (by omega)
    obtain ⟨c', hc'⟩ := g cs (i+1) (by omega)
    obtain ⟨d, hd⟩ := g ds i (by omega)
    obtain ⟨d', hd'⟩ := g ds (i+1) (by omega)
    obtain ⟨e, he⟩ := g es i (by omega)
    obtain ⟨e', he'⟩ := g es (i+1) (by omega)
    have hw : 0 < w := by linarith
    have v1 := C52_cargille_value_partial i s w hw cs ds es c d e hs hc hd he
    have v2 := C52_cargille_value_partial (i+1) s w hw cs ds es c' d' e' hs hc' hd' he'
    refine ⟨_, _, v1, v2, ?_⟩
    have ho := orderedOk_spec cs ds (series_ordered s cs ds es hs) i c c' d d' hc hc' hd hd'
    have o1 : (0:ℝ) < ((c':ℝ) - c) * 100 + ((d':ℝ) - d) * 1 := by exact_mod_cast ho.1
    have o2 : (0:ℝ) < ((c':ℝ) - c) * 100 + ((d':ℝ) - d) * 12 := by exact_mod_cast ho.2
    unfold cauchy
    have hw2 : (0:ℝ) < w ^ 2 := by positivity
    have hu1 : 1 ≤ 1 / w ^ 2 := by rw [le_div_iff₀ hw2]; nlinarith
    have hu2 : 1 / w ^ 2 ≤ 12 := by rw [div_le_iff₀ hw2]; nlinarith
    have h8 : ((10:ℝ) ^ (-8 : ℤ)) = 1 / 100000000 := by norm_num
    have e1 : ∀ x : ℝ, x / 10 * 10 ^ (-8 : ℤ) / w ^ 2 = x / 10 ^ 9 * (1 / w ^ 2) := by intro x; rw [h8]; ring
    rw [e1, e1]
    set u := 1 / w ^ 2 with hu
    have key : (0:ℝ) < ((c':ℝ) - c) * 100 + ((d':ℝ) - d) * u := by
      have : ((c':ℝ) - c) * 100 + ((d':ℝ) - d) * u
          = (12 - u) / 11 * (((c':ℝ) - c) * 100 + ((d':ℝ) - d) * 1) + (u - 1) / 11 * (((c':ℝ) - c) * 100 + ((d':ℝ) - d) * 12) := by
        ring
      rw [this]
      rcases eq_or_lt_of_le hu1 with h | h
      · rw [← h]; norm_num; linarith
      · have a1 : 0 ≤ (12 - u) / 11 := by linarith
        have a2 : 0 < (u - 1) / 11 := by linarith
        exact add_pos_of_nonneg_of_pos (mul_nonneg a1 o1.le) (mul_pos a2 o2)
    have : (c:ℝ) / 10 ^ 7 + d / 10 ^ 9 * u < c' / 10 ^ 7 + d' / 10 ^ 9 * u := by
      have e2 : ∀ a b : ℝ, a / 10 ^ 7 + b / 10 ^ 9 * u = (a * 100 + b * u) / 10 ^ 9 := by intro a b; ring
      rw [e2, e2, div_lt_div_iff_of_pos_right (by norm_num)]
      linarith
    linarith

example : oilCount "AA" = some 30 ∧ (5 : ℕ) + 1 < 30 := ⟨rfl, by norm_num⟩
example : ∃ cs ds es, series "A" = some (cs, ds, es) ∧ cs[3]? = some 14532390 ∧ ds[3]? = some 4269602 ∧
    es[3]? = some 561000000000 := ⟨_, _, _, rfl, by decide, by decide, by decide⟩

end Verif.Props
