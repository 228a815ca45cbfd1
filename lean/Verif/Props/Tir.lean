import Verif.Props.Events
import Verif.Props.Fresnel
import Verif.Lemmas.Weights

/-!
# C47: total internal reflection tallies
-/

namespace Verif.Props
open Verif.Events Verif.Spec Verif.XF Verif.Exits Verif.Fresnel Verif.Weights Verif.Root
open Verif (XF PyErr)

variable {nt nev : ℕ}

/-- the trajectory has left the sample before event `m` (event numbers count from 1; 0 stands for "never") -/
def leftBefore (ri ti : Fin nt → ℕ) (j : Fin nt) (m : ℕ) : Prop := (1 ≤ ri j ∧ ri j < m) ∨ (1 ≤ ti j ∧ ti j < m)

/-- `m` is the event at which trajectory `j`, still in the sample, is totally internally reflected for the first time -/
def TirAt (tir : Fin nev → Fin nt → Bool) (ri ti : Fin nt → ℕ) (j : Fin nt) (m : ℕ) : Prop :=
  IsFirst nev (flagged tir j) m ∧ ¬ leftBefore ri ti j m

theorem tirIndices_iff (tir : Fin nev → Fin nt → Bool) (ri ti : Fin nt → ℕ) (j : Fin nt) {m : ℕ} (hm : m ≠ 0) :
    tirIndices tir ri ti j = m ↔ TirAt tir ri ti j m := by
  have hle := firstEvent_le tir j
  have key : tirIndices tir ri ti j = m ↔ firstEvent tir j = m ∧ ¬ leftBefore ri ti j m := by
    unfold tirIndices leftBefore
    simp only
    generalize firstEvent tir j = f at *
    split_ifs <;> omega
  rw [key, firstEvent_eq_iff tir j hm, TirAt]

theorem tirIndices_le (tir : Fin nev → Fin nt → Bool) (ri ti : Fin nt → ℕ) (j : Fin nt) : tirIndices tir ri ti j ≤ nev := by
  by_cases h : tirIndices tir ri ti j = 0
  · omega
  · exact ((tirIndices_iff tir ri ti j h).mp rfl).1.2.1

theorem histogram_eq (a : Fin nt → XF) (idx : Fin nt → ℕ) (n i : ℕ) :
    histogram a idx n i = if 1 ≤ i ∧ i < n then lightAt a idx i else 0 := by
  unfold histogram
  rw [foldl_addAt, sumAt_eq]
  rw [show (fin 0 : XF) = 0 from rfl, zero_add]
  by_cases h : 1 ≤ i ∧ i < n
  · rw [if_pos h, if_pos (by omega)]
  · rw [if_neg h, if_neg (by omega)]

/-- weight of trajectory `j` at event number `m` (counted from 1) -/
noncomputable def weightAt (w : Fin nev → Fin nt → ℝ) (m : ℕ) (j : Fin nt) : ℝ :=
  if h : 1 ≤ m ∧ m - 1 < nev then w ⟨m - 1, h.2⟩ j else 0

/-- fraction passing the surface of a film when arriving at event `m` -/
noncomputable def passAt (ns nm : ℝ) (kz : Fin nev → Fin nt → ℝ) (m : ℕ) (j : Fin nt) : ℝ :=
  passFrac ns none nm (Real.arccos |weightAt kz m j|)

theorem sel_eq_weightAt (w : Fin nev → Fin nt → ℝ) (idx : Fin nt → ℕ) (j : Fin nt) :
    sel w idx j = weightAt w (idx j) j := by
  unfold sel weightAt
  split <;> split <;> first | rfl | omega

theorem sel_fin (w : Fin nev → Fin nt → ℝ) (idx : Fin nt → ℕ) (j : Fin nt) :
    sel (fun e j => fin (w e j)) idx j = fin (weightAt w (idx j) j) := by
  unfold sel weightAt
  split <;> split <;> first | rfl | omega

theorem passFilm_ok {ns nm : ℝ} (hs : 0 < ns) (kz : Fin nev → Fin nt → ℝ) (hk : ∀ e j, |kz e j| ≤ 1)
    (idx : Fin nt → ℕ) : passFilm ns nm kz idx = .ok fun j => fin (passAt ns nm kz (idx j) j) := by
  unfold passFilm
  rw [getAnglesFilm_fin _ hk]
  have hin : ∀ x, (none : Option ℝ) = some x → 0 < x := by intro x hx; cases hx
  rw [fresnelPassFrac_fin _ none hs hin]
  · simp only [passAt, sel_eq_weightAt]
  · intro i
    exact ⟨Real.arccos_nonneg _, Real.arccos_le_pi_div_two.mpr (abs_nonneg _)⟩

/-- entries of the four tallies, for events `1 ≤ ev < nevents`; `q j` is the fraction of trajectory `j` that entered -/
structure TirSpec (tir : Fin nev → Fin nt → Bool) (ri ti : Fin nt → ℕ) (q : Fin nt → ℝ) (w : Fin nev → Fin nt → ℝ)
    (pass : ℕ → Fin nt → ℝ) (ev : ℕ) (a ar s sr : ℝ) : Prop where
  /-- everything totally internally reflected for the first time at `ev` -/
  all : a = ∑ j, open Classical in if TirAt tir ri ti j ev then q j * weightAt w ev j / nt else 0
  /-- everything reflected at `ev` that was totally internally reflected before -/
  allRefl : ar = ∑ j, open Classical in
    if (∃ m, TirAt tir ri ti j m) ∧ ri j = ev then q j * weightAt w ev j * pass ev j / nt else 0
  /-- totally internally reflected after the first scattering event -/
  single : s = ∑ j, open Classical in if TirAt tir ri ti j 2 ∧ ev = 2 then q j * weightAt w ev j / nt else 0
  /-- reflected at `ev` and totally internally reflected after the first scattering event -/
  singleRefl : sr = ∑ j, open Classical in
    if TirAt tir ri ti j 2 ∧ ri j = ev then q j * weightAt w ev j * pass ev j / nt else 0

theorem lightAt_fin (a : Fin nt → ℝ) (idx : Fin nt → ℕ) (ev : ℕ) :
    lightAt (fun j => fin (a j)) idx ev = fin (∑ j, if idx j = ev then a j else 0) := by
  unfold lightAt
  rw [← sum_fin]
  refine Finset.sum_congr rfl fun j _ => ?_
  split <;> rfl

theorem fin_div_nt (x : ℝ) (j : Fin nt) : (fin x / fin (nt : ℝ) : XF) = fin (x / nt) := by
  apply fin_div
  have : 0 < nt := j.pos
  exact_mod_cast this.ne'

/-- C47, what holds.  For a film, `calc_tir` succeeds, and its tallies for the events before the last one are exactly the
weights of the trajectories concerned (`TirSpec`), multiplied by `1 - inc_refl_per_traj`, over the number of trajectories;
`tir_indices_single` is 2 for the trajectories totally internally reflected after the first scattering event and 0 for the
others. -/
theorem C47_tir_tallies_partial {ns nm : ℝ} (hs : 0 < ns) (tir : Fin nev → Fin nt → Bool) (ri ti : Fin nt → ℕ)
    (inc : Fin nt → ℝ) (w kz : Fin nev → Fin nt → ℝ) (hk : ∀ e j, |kz e j| ≤ 1) :
    ∃ t, calcTir tir ri ti (fun j => fin (inc j)) (fun e j => fin (w e j)) (passFilm ns nm kz) = .ok t ∧
      (∀ ev, 1 ≤ ev → ev < nev → ∃ a ar s sr, t.all ev = fin a ∧ t.allRefl ev = fin ar ∧ t.single ev = fin s ∧
        t.singleRefl ev = fin sr ∧
        TirSpec tir ri ti (fun j => 1 - inc j) w (passAt ns nm kz) ev a ar s sr) ∧
      ∀ j, (TirAt tir ri ti j 2 → t.indicesSingle j = 2) ∧ (¬ TirAt tir ri ti j 2 → t.indicesSingle j = 0) := by
  have hex : ∀ j, tirIndices tir ri ti j ≠ 0 ↔ ∃ m, TirAt tir ri ti j m := by
    intro j
    constructor
    · intro h; exact ⟨_, (tirIndices_iff tir ri ti j h).mp rfl⟩
    · rintro ⟨m, hm⟩
      have h0 : m ≠ 0 := by have := hm.1.1; omega
      rw [(tirIndices_iff tir ri ti j h0).mpr hm]; exact h0
  unfold calcTir
  simp only [passFilm_ok hs kz hk, bind, Except.bind, pure, Except.pure]
  refine ⟨_, rfl, fun ev h1 h2 => ?_, fun j => ?_⟩
  · simp only [histogram_eq, if_pos (show 1 ≤ ev ∧ ev < nev from ⟨h1, h2⟩), sel_fin, fin_sub, fin_mul]
    have hdiv : ∀ f : Fin nt → ℝ, (fun j => (fin (f j) / fin (nt : ℝ) : XF)) = fun j => fin (f j / nt) :=
      fun f => funext fun j => fin_div_nt _ j
    simp only [hdiv, lightAt_fin]
    refine ⟨_, _, _, _, rfl, rfl, rfl, rfl, ?_, ?_, ?_, ?_⟩
    · refine Finset.sum_congr rfl fun j _ => ?_
      have := tirIndices_iff tir ri ti j (show ev ≠ 0 by omega)
      by_cases h : tirIndices tir ri ti j = ev
      · rw [if_pos h, if_pos (this.mp h), h]
      · rw [if_neg h, if_neg (fun hh => h (this.mpr hh))]
    · refine Finset.sum_congr rfl fun j _ => ?_
      by_cases h : (∃ m, TirAt tir ri ti j m) ∧ ri j = ev
      · have h0 := (hex j).mpr h.1
        rw [if_pos (by rw [if_pos h0]; exact h.2), if_pos h, if_pos h0, h.2]
      · rw [if_neg h, if_neg]
        intro hh
        by_cases h0 : tirIndices tir ri ti j ≠ 0
        · rw [if_pos h0] at hh; exact h ⟨(hex j).mp h0, hh⟩
        · rw [if_neg h0] at hh; omega
    · refine Finset.sum_congr rfl fun j _ => ?_
      have := tirIndices_iff tir ri ti j (show (2:ℕ) ≠ 0 by omega)
      by_cases h : TirAt tir ri ti j 2 ∧ ev = 2
      · have h2' := this.mpr h.1
        rw [if_pos (by rw [h2']; simp [h.2]), if_pos h, h2', h.2]; simp
      · rw [if_neg h, if_neg]
        intro hh
        by_cases h0 : tirIndices tir ri ti j ≠ 2
        · rw [if_pos h0] at hh; omega
        · rw [if_neg h0] at hh; push Not at h0; exact h ⟨this.mp h0, by omega⟩
    · refine Finset.sum_congr rfl fun j _ => ?_
      have := tirIndices_iff tir ri ti j (show (2:ℕ) ≠ 0 by omega)
      by_cases h : TirAt tir ri ti j 2 ∧ ri j = ev
      · have h2' := this.mpr h.1
        rw [if_pos (by simp [h2', h.2]), if_pos h]; simp [h2', h.2]
      · rw [if_neg h, if_neg]
        intro hh
        by_cases h0 : tirIndices tir ri ti j = 2
        · simp [h0] at hh; exact h ⟨this.mp h0, hh⟩
        · simp [h0] at hh; omega
  · have := tirIndices_iff tir ri ti j (show (2:ℕ) ≠ 0 by omega)
    constructor
    · intro h; have h' := this.mpr h; simp [h']
    · intro h
      have h' : tirIndices tir ri ti j ≠ 2 := fun hh => h (this.mp hh)
      simp [h']

/-- C47, refuted at the last event: the loops of `calc_tir` stop before `nevents`, so the tallies at the last event are 0
whatever happened there. -/
theorem C47_last_event_refuted (tir : Fin nev → Fin nt → Bool) (ri ti : Fin nt → ℕ)
    (inc : Fin nt → XF) (w : Fin nev → Fin nt → XF) (pass : (Fin nt → ℕ) → Except PyErr (Fin nt → XF)) (t : Tir nt)
    (h : calcTir tir ri ti inc w pass = .ok t) :
    t.all nev = fin 0 ∧ t.allRefl nev = fin 0 ∧ t.single nev = fin 0 ∧ t.singleRefl nev = fin 0 := by
  unfold calcTir at h
  simp only [bind, Except.bind, pure, Except.pure] at h
  split at h
  · cases h
  · split at h
    · cases h
    · cases h
      simp only [histogram_eq, if_neg (show ¬ (1 ≤ nev ∧ nev < nev) by omega)]
      exact ⟨rfl, rfl, rfl, rfl⟩

/-- C47, refuted, concretely: a trajectory of weight 1 that is totally internally reflected at the last of three events is
missing from the tally of that event, which should be 1. -/
theorem C47_tir_lost_refuted :
    ∃ (tir : Fin 3 → Fin 1 → Bool) (ri ti : Fin 1 → ℕ) (t : Tir 1),
      TirAt tir ri ti 0 3 ∧
      calcTir tir ri ti (fun _ => fin 0) (fun _ _ => fin 1) (passFilm 1.5 1 (fun (_ : Fin 3) _ => 1)) = .ok t ∧ t.all 3 = fin 0 := by
  have hk : ∀ (e : Fin 3) (j : Fin 1), |(fun _ _ => (1:ℝ) : Fin 3 → Fin 1 → ℝ) e j| ≤ 1 := by intro e j; simp
  obtain ⟨t, ht, _⟩ := C47_tir_tallies_partial (ns := 1.5) (nm := 1) (by norm_num)
    (fun e _ => decide (e = 2)) (fun _ => 0) (fun _ => 0) (fun _ => 0) (fun _ _ => 1) (fun _ _ => 1) hk
  refine ⟨fun e _ => decide (e = 2), fun _ => 0, fun _ => 0, t, ⟨⟨by omega, le_refl _, ⟨2, rfl, rfl⟩, ?_⟩, ?_⟩, ht, ?_⟩
  · rintro k h1 h2 ⟨e, he, he'⟩
    have h3 : e = (2 : Fin 3) := by simpa using he'
    subst h3
    have : ((2 : Fin 3) : ℕ) = 2 := rfl
    omega
  · simp [leftBefore]
  · exact (C47_last_event_refuted _ _ _ _ _ _ t ht).1

/-- C47.  The totals are ordered as a user expects: for absorbing or lossless media (weights non-negative and non-increasing
along a trajectory) the totally internally reflected light that is eventually reflected never exceeds all totally internally
reflected light. -/
theorem C47_reflected_le_all {ns nm : ℝ} (hs : 0 < ns) (hm : 0 < nm) (tir : Fin nev → Fin nt → Bool) (ri ti : Fin nt → ℕ)
    (inc : Fin nt → ℝ) (w kz : Fin nev → Fin nt → ℝ) (hk : ∀ e j, |kz e j| ≤ 1)
    (hinc : ∀ j, IsFraction (inc j)) (hw0 : ∀ e j, 0 ≤ w e j) (hw : ∀ e e' j, e ≤ e' → w e' j ≤ w e j)
    (t : Tir nt)
    (ht : calcTir tir ri ti (fun j => fin (inc j)) (fun e j => fin (w e j)) (passFilm ns nm kz) = .ok t) :
    ∃ A B : ℝ, ∑ ev ∈ Finset.range (2 * nev + 1), t.all ev = fin A ∧
      ∑ ev ∈ Finset.range (2 * nev + 1), t.allRefl ev = fin B ∧ 0 ≤ B ∧ B ≤ A := by
  unfold calcTir at ht
  simp only [passFilm_ok hs kz hk, bind, Except.bind, pure, Except.pure] at ht
  cases ht
  have hdiv : ∀ f : Fin nt → ℝ, (fun j => (fin (f j) / fin (nt : ℝ) : XF)) = fun j => fin (f j / nt) :=
    fun f => funext fun j => fin_div_nt _ j
  simp only [histogram_eq, sel_fin, fin_sub, fin_mul]
  simp only [hdiv, lightAt_fin]
  have hite : ∀ (c : Prop) [Decidable c] (x : ℝ), (if c then fin x else (0 : XF)) = fin (if c then x else 0) := by
    intro c _ x; split <;> rfl
  simp only [hite, sum_fin]
  refine ⟨_, _, rfl, rfl, ?_, ?_⟩
  all_goals
    have hp : ∀ m j, 0 ≤ passAt ns nm kz m j ∧ passAt ns nm kz m j ≤ 1 := by
      intro m j
      obtain ⟨p, hp1, hp2⟩ := C08_pass_frac_fraction (n := 1) (fun _ => Real.arccos |weightAt kz m j|) none hs hm
        (by intro x hx; cases hx) (fun _ => ⟨Real.arccos_nonneg _, Real.arccos_le_pi_div_two.mpr (abs_nonneg _)⟩)
      rw [fresnelPassFrac_fin _ none hs (by intro x hx; cases hx)
        (fun _ => ⟨Real.arccos_nonneg _, Real.arccos_le_pi_div_two.mpr (abs_nonneg _)⟩)] at hp1
      have h1 := congrFun (Except.ok.inj hp1) 0
      rw [fin_inj] at h1
      unfold passAt; rw [h1]; exact hp2 0
    have hw1 : ∀ m j, 0 ≤ weightAt w m j := by
      intro m j; unfold weightAt; split
      · exact hw0 _ _
      · exact le_refl _
    have hw2 : ∀ m m' j, 1 ≤ m → m ≤ m' → m ≤ nev → weightAt w m' j ≤ weightAt w m j := by
      intro m m' j h1 h2 h3
      unfold weightAt
      rw [dif_pos (show 1 ≤ m ∧ m - 1 < nev by omega)]
      split
      · apply hw; exact Fin.mk_le_mk.mpr (by omega)
      · exact hw0 _ _
  · refine Finset.sum_nonneg fun ev _ => ?_
    split
    · refine Finset.sum_nonneg fun j _ => ?_
      have hq : 0 ≤ 1 - inc j := by linarith [(hinc j).2]
      split
      · split
        · exact div_nonneg (mul_nonneg (mul_nonneg hq (hw1 _ _)) (hp _ _).1) (Nat.cast_nonneg _)
        · exact le_refl _
      · split
        · exact div_nonneg (mul_nonneg (mul_nonneg hq (hw1 _ _)) (hp _ _).1) (Nat.cast_nonneg _)
        · exact le_refl _
    · exact le_refl _
  · -- exchange the sums
    have hswap : ∀ (f : Fin nt → ℝ) (idx : Fin nt → ℕ),
        ∑ ev ∈ Finset.range (2 * nev + 1), (if 1 ≤ ev ∧ ev < nev then ∑ j, (if idx j = ev then f j else 0) else 0) =
        ∑ j, if 1 ≤ idx j ∧ idx j < nev then f j else 0 := by
      intro f idx
      have : ∀ ev, (if 1 ≤ ev ∧ ev < nev then ∑ j, (if idx j = ev then f j else 0) else 0) =
          ∑ j, (if idx j = ev then (if 1 ≤ idx j ∧ idx j < nev then f j else 0) else 0) := by
        intro ev
        by_cases h : 1 ≤ ev ∧ ev < nev
        · rw [if_pos h]
          refine Finset.sum_congr rfl fun j _ => ?_
          by_cases hj : idx j = ev
          · rw [if_pos hj, if_pos hj, if_pos (by rw [hj]; exact h)]
          · rw [if_neg hj, if_neg hj]
        · rw [if_neg h]
          symm
          refine Finset.sum_eq_zero fun j _ => ?_
          by_cases hj : idx j = ev
          · rw [if_pos hj, if_neg (by rw [hj]; exact h)]
          · rw [if_neg hj]
      simp only [this]
      rw [Finset.sum_comm]
      refine Finset.sum_congr rfl fun j _ => ?_
      rw [Finset.sum_ite_eq]
      split
      · rfl
      · next hn =>
        rw [if_neg]
        intro hh
        apply hn
        rw [Finset.mem_range]; omega
    rw [hswap, hswap]
    refine Finset.sum_le_sum fun j _ => ?_
    have hq : 0 ≤ 1 - inc j := by linarith [(hinc j).2]
    have hn : (0:ℝ) ≤ nt := Nat.cast_nonneg _
    by_cases h0 : tirIndices tir ri ti j = 0
    · simp [h0]
    · simp only [if_pos h0]
      have hT := (tirIndices_iff tir ri ti j h0).mp rfl
      have hle : ri j ≠ 0 → tirIndices tir ri ti j ≤ ri j := by
        intro hr
        by_contra hc
        exact hT.2 (Or.inl ⟨by omega, by omega⟩)
      by_cases hr : 1 ≤ ri j ∧ ri j < nev
      · have hle' := hle (by omega)
        rw [if_pos hr, if_pos (by omega)]
        apply div_le_div_of_nonneg_right _ hn
        rw [mul_assoc]
        apply mul_le_mul_of_nonneg_left _ hq
        calc weightAt w (ri j) j * passAt ns nm kz (ri j) j ≤ weightAt w (ri j) j * 1 :=
              mul_le_mul_of_nonneg_left (hp _ _).2 (hw1 _ _)
          _ = weightAt w (ri j) j := mul_one _
          _ ≤ _ := hw2 _ _ _ (by omega) hle' (by omega)
      · rw [if_neg hr]
        split
        · exact div_nonneg (mul_nonneg hq (hw1 _ _)) hn
        · exact le_refl _

example : ∀ e e' : Fin 3, e ≤ e' → (fun _ : Fin 3 => (1:ℝ)) e' ≤ (fun _ : Fin 3 => (1:ℝ)) e := fun _ _ _ => le_refl _

end Verif.Props
