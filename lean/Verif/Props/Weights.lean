import Verif.Lemmas.Weights
import Verif.Props.Exits
import Verif.Props.Fresnel
import Mathlib.Algebra.BigOperators.Field

/-!
# Properties C14–C20: weights, reflectance and transmittance
-/

namespace Verif.Props
open Classical Verif.Spec Verif.Root Verif.Fresnel Verif.Exits Verif.Weights XF

/-! ## C14 -/

/-- C14 (a).  Whatever the event numbers, the four weights of every trajectory add up to its incident fraction. -/
theorem C14_outcomes_sum {nev nt : ℕ} (i : Fin nt → ℝ) (ri ti si : Fin nt → ℕ) (w : Fin nev → Fin nt → ℝ) (j : Fin nt) :
    let O := calcOutcomeWeights (fun j => fin (i j)) ri ti si (fun e j => fin (w e j))
    O.refl j + O.trans j + O.stuck j + O.absorb j = fin (i j) := by
  simp only [calcOutcomeWeights, sel_fin, fin_mul, fin_sub, fin_add]
  congr 1
  ring

/-- C14 (b).  With the event numbers returned by `find_event_indices`: every trajectory has one outcome event `e`; the
weight `i·w` at that event is booked under exactly one of the three outcomes according to the flag found there, and the
rest `i·(1-w)` is booked as absorbed.  In particular all four weights are non-negative when `i` and `w` are fractions, and
nothing is booked as absorbed when the weight is still 1. -/
theorem C14_outcomes_exact {nev nt : ℕ} (neg pos tir : Fin (nev + 1) → Fin nt → Bool) (i : Fin nt → ℝ)
    (w : Fin (nev + 1) → Fin nt → ℝ) (j : Fin nt) :
    let idx := findEventIndices neg pos tir
    let O := calcOutcomeWeights (fun j => fin (i j)) idx.1 idx.2.1 idx.2.2.1 (fun e j => fin (w e j))
    ∃ e : Fin (nev + 1), O.absorb j = fin (i j * (1 - w e j)) ∧
      ((neg e j = true ∧ O.refl j = fin (i j * w e j) ∧ O.trans j = fin 0 ∧ O.stuck j = fin 0) ∨
       (pos e j = true ∧ O.refl j = fin 0 ∧ O.trans j = fin (i j * w e j) ∧ O.stuck j = fin 0) ∨
       (e = Fin.last nev ∧ (∀ e, neg e j = false ∧ pos e j = false) ∧
          O.refl j = fin 0 ∧ O.trans j = fin 0 ∧ O.stuck j = fin (i j * w e j))) := by
  intro idx O
  have h := C10_first_exit (by omega : 1 ≤ nev + 1) neg pos tir j
  have h9 := C09_exactly_one_outcome neg pos tir j
  change (idx.1 j ≠ 0 ∧ idx.2.1 j = 0 ∧ idx.2.2.1 j = 0) ∨ (idx.1 j = 0 ∧ idx.2.1 j ≠ 0 ∧ idx.2.2.1 j = 0) ∨
    (idx.1 j = 0 ∧ idx.2.1 j = 0 ∧ idx.2.2.1 j = nev + 1) at h9
  obtain ⟨hr, ht, hs, -, -⟩ := h
  change ∀ m, 1 ≤ m → (idx.1 j = m ↔ _) at hr
  change ∀ m, 1 ≤ m → (idx.2.1 j = m ↔ _) at ht
  change idx.2.2.1 j ≠ 0 ↔ _ at hs
  clear_value idx
  have sel0 : ∀ f : Fin nt → ℕ, f j = 0 → sel w f j = 0 := fun f hf => sel_zero w f j hf
  rcases h9 with ⟨h1, h2, h3⟩ | ⟨h1, h2, h3⟩ | ⟨h1, h2, h3⟩
  · obtain ⟨hf, -⟩ := (hr _ (Nat.one_le_iff_ne_zero.mpr h1)).1 rfl
    have hle := hf.2.1
    obtain ⟨e, he, hne⟩ := hf.2.2.1
    have hsel : sel w idx.1 j = w e j := by
      rw [sel_pos w idx.1 j (Nat.pos_of_ne_zero h1) (by omega)]
      congr 1; apply Fin.ext; show idx.1 j - 1 = e.val
      omega
    refine ⟨e, ?_, Or.inl ⟨hne, ?_, ?_, ?_⟩⟩ <;>
    · simp only [O, calcOutcomeWeights, sel_fin, hsel, sel0 _ h2, sel0 _ h3, fin_mul, fin_sub, mul_zero, sub_zero]
      try (congr 1; ring)
  · obtain ⟨hf, -⟩ := (ht _ (Nat.one_le_iff_ne_zero.mpr h2)).1 rfl
    have hle := hf.2.1
    obtain ⟨e, he, hne⟩ := hf.2.2.1
    have hsel : sel w idx.2.1 j = w e j := by
      rw [sel_pos w idx.2.1 j (Nat.pos_of_ne_zero h2) (by omega)]
      congr 1; apply Fin.ext; show idx.2.1 j - 1 = e.val
      omega
    refine ⟨e, ?_, Or.inr (Or.inl ⟨hne, ?_, ?_, ?_⟩)⟩ <;>
    · simp only [O, calcOutcomeWeights, sel_fin, hsel, sel0 _ h1, sel0 _ h3, fin_mul, fin_sub, mul_zero, sub_zero]
      try (congr 1; ring)
  · have hsel : sel w idx.2.2.1 j = w (Fin.last nev) j := by
      have h3' : idx.2.2.1 j = nev + 1 := h3
      rw [sel_pos w idx.2.2.1 j (by rw [h3']; omega) (by rw [h3']; omega)]
      congr 1; apply Fin.ext; show idx.2.2.1 j - 1 = nev
      omega
    have hnone := hs.1 (by rw [h3]; omega)
    have hfl : ∀ e, neg e j = false ∧ pos e j = false := by
      intro e
      have := hnone (e.val + 1)
      constructor
      · rw [← Bool.not_eq_true]; intro hh; exact this.1 ⟨e, rfl, hh⟩
      · rw [← Bool.not_eq_true]; intro hh; exact this.2 ⟨e, rfl, hh⟩
    refine ⟨Fin.last nev, ?_, Or.inr (Or.inr ⟨rfl, hfl, ?_, ?_, ?_⟩)⟩ <;>
    · simp only [O, calcOutcomeWeights, sel_fin, hsel, sel0 _ h1, sel0 _ h2, fin_mul, fin_sub, mul_zero, sub_zero]
      try (congr 1; ring)

/-- Non-vacuity of C14: one trajectory, two events, reflected at the second with half its weight left, three quarters of
the light having entered: reflected 3/8, absorbed 3/8. -/
example :
    let O := calcOutcomeWeights (nev := 2) (nt := 1) (fun _ => fin (3/4)) (fun _ => 2) (fun _ => 0) (fun _ => 0)
      (fun e _ => fin (if e = 0 then 1 else 1/2))
    O.refl 0 = fin (3/8) ∧ O.absorb 0 = fin (3/8) := by
  simp only [calcOutcomeWeights, sel_fin]
  rw [sel_pos _ (fun _ => 2) 0 (by norm_num) (by norm_num), sel_zero _ (fun _ => 0) 0 rfl]
  constructor <;> norm_num

/-! ## C15 -/

/-- A film call that passes the roughness check. -/
theorem film_call_eq {nev nt : ℕ} (o : Optics) (thickness z_low : ℝ) (z : Fin (nev + 2) → Fin nt → ℝ)
    (kz w : Fin (nev + 1) → Fin nt → ℝ) (kz0_rot kz0_refl : Option (Fin nt → ℝ)) (det : Bool)
    (filter : (Fin nt → ℕ) → Fin nt → ℕ) (hrough : kz0_rot.isSome = kz0_refl.isSome) :
    calcReflTransFilm o thickness z_low z kz w kz0_rot kz0_refl det filter =
      calcReflTrans o .film (filmGeometry o thickness z_low z kz kz0_rot (if det then filter else id)) kz0_refl det
        (fun e j => fin (w e j)) := by
  unfold calcReflTransFilm roughnessArgs
  cases kz0_rot <;> cases kz0_refl <;> simp at hrough ⊢ <;> rfl

/-- C15 (a).  Every film call with consistent roughness arguments returns; its reflectance and transmittance are either
both NaN (characterised in C18) or non-negative numbers whose sum is at most one — for every detection angle, with or
without a goniometer, coverslips, fine and coarse roughness.  `FilmOK` (Verif/Lemmas/Weights.lean) says: at least one
trajectory, positive indices, direction cosines and weights in range, and a goniometer that only removes trajectories. -/
theorem C15_film_fractions {nev nt : ℕ} {o : Optics} (thickness z_low : ℝ) (z : Fin (nev + 2) → Fin nt → ℝ)
    {kz w : Fin (nev + 1) → Fin nt → ℝ} {kz0_rot kz0_refl : Option (Fin nt → ℝ)} {det : Bool}
    {filter : (Fin nt → ℕ) → Fin nt → ℕ} (hrough : kz0_rot.isSome = kz0_refl.isSome)
    (H : FilmOK o kz w kz0_rot (if det then filter else id)) :
    ∃ rt, calcReflTransFilm o thickness z_low z kz w kz0_rot kz0_refl det filter = .ok rt ∧
      ((rt.R = nan ∧ rt.T = nan) ∨
       ∃ R T : ℝ, rt.R = fin R ∧ rt.T = fin T ∧ 0 ≤ R ∧ 0 ≤ T ∧ R + T ≤ 1) := by
  rw [film_call_eq _ _ _ _ _ _ _ _ _ _ hrough]
  rcases film_cases thickness z_low z kz0_refl H det with ⟨-, rt, h1, h2, h3⟩ | ⟨i, hi, -, hg, h⟩
  · exact ⟨rt, h1, Or.inl ⟨h2, h3⟩⟩
  · rcases h with ⟨-, rt, h1, h2, h3⟩ | ⟨-, rt, h1, h2, h3, -⟩
    · exact ⟨rt, h1, Or.inl ⟨h2, h3⟩⟩
    · exact ⟨rt, h1, Or.inr ⟨_, _, h2, h3, filmR_nonneg hg _ _ _ _ (fun j => (irOf_mem (hi j).2).1),
        filmT_nonneg hg _ _ _, filmRT_le H.nt_pos hg _ _ _ _ (fun j => (irOf_mem (hi j).2).2)⟩⟩

/-- C15 (b).  Giving only one of the two coarse-roughness arguments is a ValueError. -/
theorem C15_roughness_args {nev nt : ℕ} (o : Optics) (thickness z_low : ℝ) (z : Fin (nev + 2) → Fin nt → ℝ)
    (kz w : Fin (nev + 1) → Fin nt → ℝ) (kz0_rot kz0_refl : Option (Fin nt → ℝ)) (det : Bool)
    (filter : (Fin nt → ℕ) → Fin nt → ℕ) (h : kz0_rot.isSome ≠ kz0_refl.isSome) :
    calcReflTransFilm o thickness z_low z kz w kz0_rot kz0_refl det filter = .error .valueError := by
  unfold calcReflTransFilm roughnessArgs
  cases kz0_rot <;> cases kz0_refl <;> simp at h ⊢ <;> rfl

/-- C15 (c).  The per-trajectory reflectances and transmittances add up to the totals. -/
theorem C15_per_traj_sum {nev nt : ℕ} {o : Optics} (b : Boundary) (g : Geometry nt) (kz0_refl : Option (Fin nt → ℝ))
    (det : Bool) (w : Fin nev → Fin nt → XF) {rt : RT nt} (h : calcReflTrans o b g kz0_refl det w = .ok rt) :
    rt.R = ∑ j, rt.reflPer j ∧ rt.T = ∑ j, rt.transPer j := by
  unfold calcReflTrans at h
  cases hl : level o g kz0_refl false w with
  | error e => rw [hl] at h; exact (nomatch h)
  | ok l =>
    rw [hl] at h
    simp only [bind, Except.bind, pure, Except.pure] at h
    injection h with h
    rw [← h]
    exact ⟨rfl, rfl⟩

/-- A film call used to show that hypotheses can be met: one photon, sample and medium of index 1, going straight up
through a film of thickness 10 with weight 1. -/
noncomputable def demoOptics : Optics :=
  { n_medium := 1, n_sample := 1, n_tir := 1, n_front := none, n_back := none, detection_angle := Real.pi / 2 }

theorem demo_ok : FilmOK (nev := 0) (nt := 1) demoOptics (fun _ _ => 1) (fun _ _ => 1) none id := by
  refine ⟨one_pos, one_pos, one_pos, ?_, ?_, ?_, ?_, ?_, ?_⟩
  · intro x h; cases h
  · intro x h; cases h
  · intro e j; simp
  · intro e j; norm_num
  · intro k h; cases h
  · intro f j; left; rfl

/-- Non-vacuity of C15 (see also C18_film_finite_partial, which shows this call returns numbers). -/
example : FilmOK (nev := 0) (nt := 1) demoOptics (fun _ _ => 1) (fun _ _ => 1) none
    (if false then (fun f => f) else id) := demo_ok

/-! ## C17 -/

/-- C17.  For the same trajectories, a larger detection angle never decreases reflectance or transmittance (and never
turns numbers into NaN). -/
theorem C17_detection_monotone {nev nt : ℕ} {o : Optics} (thickness z_low : ℝ) (z : Fin (nev + 2) → Fin nt → ℝ)
    {kz w : Fin (nev + 1) → Fin nt → ℝ} {kz0_rot kz0_refl : Option (Fin nt → ℝ)} {det : Bool}
    {filter : (Fin nt → ℕ) → Fin nt → ℕ} (hrough : kz0_rot.isSome = kz0_refl.isSome)
    (H : FilmOK o kz w kz0_rot (if det then filter else id)) {a a' : ℝ} (haa : a ≤ a') {rt rt' : RT nt}
    (h : calcReflTransFilm { o with detection_angle := a } thickness z_low z kz w kz0_rot kz0_refl det filter = .ok rt)
    (h' : calcReflTransFilm { o with detection_angle := a' } thickness z_low z kz w kz0_rot kz0_refl det filter = .ok rt')
    {R T : ℝ} (hR : rt.R = fin R) (hT : rt.T = fin T) :
    ∃ R' T', rt'.R = fin R' ∧ rt'.T = fin T' ∧ R ≤ R' ∧ T ≤ T' := by
  have Ha : ∀ x, FilmOK { o with detection_angle := x } kz w kz0_rot (if det then filter else id) := fun x =>
    ⟨H.nt_pos, H.medium, H.tir, H.front, H.back, H.kz1, H.w01, H.rot1, H.filt⟩
  rw [film_call_eq _ _ _ _ _ _ _ _ _ _ hrough] at h h'
  have hn : (0:ℝ) < nt := by exact_mod_cast H.nt_pos
  rcases film_cases thickness z_low z kz0_refl (Ha a) det with ⟨-, rt1, h1, h2, h3⟩ | ⟨i, hi, hinc, hg, hc⟩
  · rw [h] at h1; injection h1 with h1; rw [← h1, hR] at h2; exact absurd h2 (fin_ne_nan _)
  rcases hc with ⟨-, rt1, h1, h2, h3⟩ | ⟨hk, rt1, h1, h2, h3, -⟩
  · rw [h] at h1; injection h1 with h1; rw [← h1, hR] at h2; exact absurd h2 (fin_ne_nan _)
  rcases film_cases thickness z_low z kz0_refl (Ha a') det with ⟨⟨j, hj⟩, -⟩ | ⟨i', hi', hinc', hg', hc'⟩
  · obtain ⟨t, ht, -⟩ := hinc j
    rw [show incAngleFilm o.n_medium o.n_tir (kz 0) kz0_rot j = nan from hj] at ht
    exact absurd ht (nan_ne_fin _)
  have hii : i' = i := by
    funext j
    obtain ⟨t, ht, -, -, e⟩ := hinc j
    obtain ⟨t', ht', -, -, e'⟩ := hinc' j
    have : (fin t : XF) = fin t' := ht.symm.trans ht'
    rw [fin_inj] at this
    rw [e, e', this]
  subst hii
  rcases hc' with ⟨hk', -⟩ | ⟨-, rt2, g1, g2, g3, -⟩
  · exact absurd hk' hk
  rw [h] at h1; injection h1 with h1
  rw [h'] at g1; injection g1 with g1
  subst h1; subst g1
  refine ⟨_, _, g2, g3, ?_, ?_⟩
  · rw [hR, fin_inj] at h2
    rw [h2]
    apply Finset.sum_le_sum
    intro j _
    apply div_le_div_of_nonneg_right _ hn.le
    set c := filmShadow { o with detection_angle := a } thickness z_low z kz w kz0_rot (if det then filter else id) i'
    show c.dr o.n_sample o.n_medium a j + c.er det j * c.rdf o.n_sample o.n_medium a + _ ≤
      c.dr o.n_sample o.n_medium a' j + c.er det j * c.rdf o.n_sample o.n_medium a' + _
    have e1 : c.dr o.n_sample o.n_medium a j ≤ c.dr o.n_sample o.n_medium a' j := dcR_mono (hg.Pr0 j) haa
    have e2 : c.rdf o.n_sample o.n_medium a ≤ c.rdf o.n_sample o.n_medium a' := by
      apply div_le_div_of_nonneg_right _ (RIn.maxEPS_pos _).le
      exact max_le_max (Finset.sum_le_sum fun k _ => dcR_mono (hg.Pr0 k) haa) le_rfl
    have e3 := mul_le_mul_of_nonneg_left e2 (hg.er0 det j)
    have e4 : (if det then (0:ℝ) else irOf o.n_medium (fun j => Real.arccos |kz 0 j|) i' kz0_refl a j) ≤
        (if det then (0:ℝ) else irOf o.n_medium (fun j => Real.arccos |kz 0 j|) i' kz0_refl a' j) := by
      split
      · exact le_rfl
      · exact irOf_mono (hi j).2 haa
    linarith
  · rw [hT, fin_inj] at h3
    rw [h3]
    apply Finset.sum_le_sum
    intro j _
    apply div_le_div_of_nonneg_right _ hn.le
    set c := filmShadow { o with detection_angle := a } thickness z_low z kz w kz0_rot (if det then filter else id) i'
    show c.dt o.n_sample o.n_medium a j + c.et j * c.tdf o.n_sample o.n_medium a ≤
      c.dt o.n_sample o.n_medium a' j + c.et j * c.tdf o.n_sample o.n_medium a'
    have e1 : c.dt o.n_sample o.n_medium a j ≤ c.dt o.n_sample o.n_medium a' j := dcR_mono (hg.Pt0 j) haa
    have e2 : c.tdf o.n_sample o.n_medium a ≤ c.tdf o.n_sample o.n_medium a' := by
      apply div_le_div_of_nonneg_right _ (RIn.maxEPS_pos _).le
      exact max_le_max (Finset.sum_le_sum fun k _ => dcR_mono (hg.Pt0 k) haa) le_rfl
    have e3 := mul_le_mul_of_nonneg_left e2 (hg.et0 j)
    linarith

/-! ## C16 -/

theorem arccos_abs_sin (k : ℝ) : Real.sin (Real.arccos |k|) = Real.sqrt (1 - k ^ 2) := by
  rw [Real.sin_arccos, sq_abs]

/-- with a full-hemisphere detection angle every weight that leaves is detected -/
theorem dcR_full {ns nt' nm θ w : ℝ} {ni : Option ℝ} (hns : 0 < ns) (hle : ns ≤ nt') (hm : 0 < nm)
    (hi : ∀ x, ni = some x → 0 < x) (h0 : 0 ≤ θ) (h1 : θ ≤ Real.pi / 2) :
    dcR ns nm (Real.pi / 2) θ (w * passFrac nt' ni nm θ) = w * passFrac nt' ni nm θ := by
  unfold dcR
  split
  · rfl
  · next h =>
    have hs := sin_nonneg_of h0 h1
    have hlt : nm < ns * Real.sin θ := by
      by_contra hh
      push Not at hh
      apply h
      rw [abs_of_nonneg (by positivity)]
      refine ⟨?_, Real.arcsin_le_pi_div_two _⟩
      rw [div_mul_eq_mul_div, div_le_one hm]
      exact hh
    have hz : passFrac nt' ni nm θ = 0 := by
      rw [C08_pass_frac_zero_iff ni (lt_of_lt_of_le hns hle) hm hi h0 h1]
      right; left
      nlinarith
    rw [hz, mul_zero]

/-- C16 (a).  Full-hemisphere detection, no goniometer, no coarse roughness.  Let `a j` be the absorbed weight of
trajectory `j` (`calc_outcome_weights`), `b j` the weight reflected back into the sample at its exit and `p j` the weight
that left (`fresnel_correct_exit`).  Whenever the call returns numbers,
`R + T = 1 - (A + B·A/(A + P)) / ntraj`: the internally reflected light `B` is absorbed in the same proportion as the light
whose fate is known.  (`n_sample ≤ n_tir` holds for every fine roughness when n_sample is between the two indices.) -/
theorem C16_energy_balance {nev nt : ℕ} {o : Optics} (thickness z_low : ℝ) (z : Fin (nev + 2) → Fin nt → ℝ)
    {kz w : Fin (nev + 1) → Fin nt → ℝ} {filter : (Fin nt → ℕ) → Fin nt → ℕ}
    (H : FilmOK o kz w none id) (hns : 0 < o.n_sample) (hle : o.n_sample ≤ o.n_tir)
    (hdet : o.detection_angle = Real.pi / 2) {rt : RT nt} {R T : ℝ}
    (h : calcReflTransFilm o thickness z_low z kz w none none false filter = .ok rt)
    (hR : rt.R = fin R) (hT : rt.T = fin T) :
    ∃ (l : Level nt) (a b p : Fin nt → ℝ), level o (filmGeometry o thickness z_low z kz none id) none false (fun e j => fin (w e j)) = .ok l ∧
      (∀ j, l.out.absorb j = fin (a j) ∧ l.exit.reflFresnel j + l.exit.transFresnel j = fin (b j) ∧
        l.exit.reflPass j + l.exit.transPass j = fin (p j)) ∧
      R + T = 1 - ((∑ j, a j) + (∑ j, b j) * ((∑ j, a j) / ((∑ j, a j) + ∑ j, p j))) / nt := by
  rw [film_call_eq _ _ _ _ _ _ _ _ _ _ rfl] at h
  simp only [Bool.false_eq_true, if_false] at h
  have hn : (nt:ℝ) ≠ 0 := by exact_mod_cast H.nt_pos.ne'
  rcases film_cases thickness z_low z none H false with ⟨-, rt1, h1, h2, h3⟩ | ⟨i, hi, hinc, hg, hc⟩
  · rw [h] at h1; injection h1 with h1; rw [← h1, hR] at h2; exact absurd h2 (fin_ne_nan _)
  rcases hc with ⟨-, rt1, h1, h2, h3⟩ | ⟨hk, rt1, h1, h2, h3, -⟩
  · rw [h] at h1; injection h1 with h1; rw [← h1, hR] at h2; exact absurd h2 (fin_ne_nan _)
  rw [h] at h1; injection h1 with h1
  subst h1
  rw [hR, fin_inj] at h2
  rw [hT, fin_inj] at h3
  set g := filmGeometry o thickness z_low z kz none id with hgdef
  set c := filmShadow o thickness z_low z kz w none id i with hcdef
  have hmem : ∀ k : ℝ, _ := arccos_abs_mem
  have pR := fresnelPassFrac_fin (na := o.n_medium) (fun j => Real.arccos |sel kz g.ri j|) o.n_front H.tir H.front
    (fun _ => hmem _)
  have pT := fresnelPassFrac_fin (na := o.n_medium) (fun j => Real.arccos |sel kz g.ti j|) o.n_back H.tir H.back
    (fun _ => hmem _)
  have hr : g.thRefl = fun j => fin (Real.arccos |sel kz g.ri j|) := getAnglesFilm_fin _ H.kz1
  have ht : g.thTrans = fun j => fin (Real.arccos |sel kz g.ti j|) := getAnglesFilm_fin _ H.kz1
  have hinc' : incPassFrac false g.thInc o.n_medium o.n_front o.n_tir = .ok (fun j => fin (i j)) := by
    refine (film_inc H).trans ?_
    congr 1
    funext j
    obtain ⟨t, e1, -, -, e2⟩ := hinc j
    rw [e1, e2]; rfl
  have hlev : ∃ l, level o g none false (fun e j => fin (w e j)) = .ok l ∧
      ∀ j, l.out.absorb j = fin (c.a j) ∧ l.exit.reflFresnel j + l.exit.transFresnel j = fin (c.fr j + c.ft j) ∧
        l.exit.reflPass j + l.exit.transPass j = fin (c.Pr j + c.Pt j) := by
    unfold level
    rw [hinc']
    simp only [bind, Except.bind, pure, Except.pure, fresnelCorrectExit, hr, ht, pR, pT]
    refine ⟨_, rfl, ?_⟩
    intro j
    refine ⟨?_, ?_, ?_⟩
    · simp only [calcOutcomeWeights, sel_fin, fin_mul, fin_sub]; rfl
    · simp only [calcOutcomeWeights, sel_fin, fin_mul, fin_sub, fin_add]; rfl
    · simp only [calcOutcomeWeights, sel_fin, fin_mul, fin_add]; rfl
  obtain ⟨l, hl, hlj⟩ := hlev
  refine ⟨l, fun j => c.a j, fun j => c.fr j + c.ft j, fun j => c.Pr j + c.Pt j, hl, hlj, ?_⟩
  · have hdr : ∀ j, c.dr o.n_sample o.n_medium (Real.pi / 2) j = c.Pr j := fun j =>
      dcR_full hns hle H.medium H.front (hmem _).1 (hmem _).2
    have hdt : ∀ j, c.dt o.n_sample o.n_medium (Real.pi / 2) j = c.Pt j := fun j =>
      dcR_full hns hle H.medium H.back (hmem _).1 (hmem _).2
    have hrdf : c.rdf o.n_sample o.n_medium (Real.pi / 2) = 1 := by
      unfold RIn.rdf
      rw [Finset.sum_congr rfl fun j _ => hdr j, div_self (RIn.maxEPS_pos _).ne']
    have htdf : c.tdf o.n_sample o.n_medium (Real.pi / 2) = 1 := by
      unfold RIn.tdf
      rw [Finset.sum_congr rfl fun j _ => hdt j, div_self (RIn.maxEPS_pos _).ne']
    have hir : ∀ j, irOf o.n_medium (fun j => Real.arccos |kz 0 j|) i none (Real.pi / 2) j = 1 - i j := by
      intro j
      unfold irOf dcR
      simp only
      rw [if_pos]
      rw [div_self H.medium.ne', one_mul]
      exact ⟨Real.abs_sin_le_one _, Real.arcsin_le_pi_div_two _⟩
    have hsum1 : ∑ _j : Fin nt, (1:ℝ) / nt = 1 := by
      rw [Finset.sum_const, Finset.card_univ, Fintype.card_fin, nsmul_eq_mul]; field_simp
    have hkn : (∑ j, c.a j) + ∑ j, (c.Pr j + c.Pt j) = c.known := by
      rw [hg.known_eq, Finset.sum_add_distrib]; ring
    have hft : c.rf + c.tf = 1 - (∑ j, c.a j) / c.known := hg.rf_add_tf hk
    simp only
    rw [hkn]
    rw [hdet] at h2 h3
    have hterm : R + T = ∑ j, (1 / nt - (c.a j + (c.fr j + c.ft j) * ((∑ j, c.a j) / c.known)) / nt) := by
      rw [h2, h3]
      unfold filmR filmT
      rw [← Finset.sum_add_distrib]
      apply Finset.sum_congr rfl
      intro j _
      rw [hdr, hdt, hrdf, htdf, hir, ← add_div, ← sub_div]
      congr 1
      have e := hg.er_et j
      rw [hft] at e
      have e2 : c.i j = c.a j + c.r j + c.t j + c.s j := by unfold RIn.a; ring
      have e3 : c.i j = i j := rfl
      have e4 : c.fr j = c.r j - c.Pr j := rfl
      have e5 : c.ft j = c.t j - c.Pt j := rfl
      simp only [Bool.false_eq_true, if_false]
      rw [← e3, e2]
      linear_combination e + e4 + e5
    rw [hterm, Finset.sum_sub_distrib, hsum1, ← Finset.sum_div, Finset.sum_add_distrib, ← Finset.sum_mul]

/-- C16 (b).  Lossless film: if every weight is 1 (no absorption), reflectance plus transmittance is exactly one. -/
theorem C16_lossless {nev nt : ℕ} {o : Optics} (thickness z_low : ℝ) (z : Fin (nev + 2) → Fin nt → ℝ)
    {kz w : Fin (nev + 1) → Fin nt → ℝ} {filter : (Fin nt → ℕ) → Fin nt → ℕ}
    (H : FilmOK o kz w none id) (hns : 0 < o.n_sample) (hle : o.n_sample ≤ o.n_tir)
    (hdet : o.detection_angle = Real.pi / 2) (hw : ∀ e j, w e j = 1) {rt : RT nt} {R T : ℝ}
    (h : calcReflTransFilm o thickness z_low z kz w none none false filter = .ok rt)
    (hR : rt.R = fin R) (hT : rt.T = fin T) : R + T = 1 := by
  obtain ⟨l, a, b, p, hl, hj, hsum⟩ := C16_energy_balance thickness z_low z H hns hle hdet h hR hT
  have ha : ∀ j, a j = 0 := by
    intro j
    unfold level at hl
    cases hi : incPassFrac false (filmGeometry o thickness z_low z kz none id).thInc o.n_medium o.n_front o.n_tir with
    | error e => rw [hi] at hl; exact (nomatch hl)
    | ok inc =>
      rw [hi] at hl
      simp only [bind, Except.bind] at hl
      split at hl
      · exact (nomatch hl)
      · simp only [pure, Except.pure] at hl
        injection hl with hl
        have hab := (hj j).1
        rw [← hl] at hab
        have hinc : ∃ i : Fin nt → XF, inc = i ∧ (i j = nan ∨ ∃ x, i j = fin x) := by
          refine ⟨inc, rfl, ?_⟩
          rw [show (filmGeometry o thickness z_low z kz none id).thInc = incAngleFilm o.n_medium o.n_tir (kz 0) none
            from rfl, film_inc H] at hi
          injection hi with hi
          rw [← hi]
          simp only
          cases incAngleFilm o.n_medium o.n_tir (kz 0) none j <;> simp [onFin]
        obtain ⟨i, rfl, hij⟩ := hinc
        set X := findValidExitsFilm o.n_tir o.n_medium thickness z_low z kz with hX
        rcases hij with hij | ⟨x, hij⟩
        · simp only [calcOutcomeWeights, hij] at hab
          simp at hab
        · obtain ⟨e, he, -⟩ := C14_outcomes_exact X.neg X.pos X.tir (fun _ => x) w j
          have : (calcOutcomeWeights inc (filmGeometry o thickness z_low z kz none id).ri
              (filmGeometry o thickness z_low z kz none id).ti (filmGeometry o thickness z_low z kz none id).si
              (fun e j => fin (w e j))).absorb j =
            (calcOutcomeWeights (fun _ => fin x) (findEventIndices X.neg X.pos X.tir).1
              (findEventIndices X.neg X.pos X.tir).2.1 (findEventIndices X.neg X.pos X.tir).2.2.1
              (fun e j => fin (w e j))).absorb j := by
            simp only [calcOutcomeWeights, hij]; rfl
          rw [this, he, hw, fin_inj] at hab
          rw [← hab]; ring
  rw [hsum]
  simp [ha]

/-! ## C18 -/

/-- C18 (refuted).  If no trajectory is absorbed and none leaves the sample, the call returns NaN for both numbers:
`refl_frac` and `trans_frac` are 0/0.  Such batches are ordinary: too few events for the film's thickness, or (C13) a medium
of higher index than the sample.  Here: every trajectory is reported stuck and all weights are 1. -/
theorem C18_all_stuck_nan_refuted {nev nt : ℕ} {o : Optics} (thickness z_low : ℝ) (z : Fin (nev + 2) → Fin nt → ℝ)
    {kz w : Fin (nev + 1) → Fin nt → ℝ} {kz0_rot kz0_refl : Option (Fin nt → ℝ)}
    {filter : (Fin nt → ℕ) → Fin nt → ℕ} (hrough : kz0_rot.isSome = kz0_refl.isSome)
    (H : FilmOK o kz w kz0_rot id) (hw : ∀ e j, w e j = 1)
    (hstuck : let X := findValidExitsFilm o.n_tir o.n_medium thickness z_low z kz
      ∀ e j, X.pos e j = false ∧ X.neg e j = false) :
    ∃ rt, calcReflTransFilm o thickness z_low z kz w kz0_rot kz0_refl false filter = .ok rt ∧
      rt.R = nan ∧ rt.T = nan := by
  rw [film_call_eq _ _ _ _ _ _ _ _ _ _ hrough]
  simp only [Bool.false_eq_true, if_false]
  rcases film_cases thickness z_low z kz0_refl H false with ⟨-, h⟩ | ⟨i, hi, -, hg, h⟩
  · exact h
  rcases h with ⟨-, h⟩ | ⟨hk, -⟩
  · exact h
  exfalso
  apply hk
  apply Finset.sum_eq_zero
  intro j _
  set X := findValidExitsFilm o.n_tir o.n_medium thickness z_low z kz with hX
  have hneg : firstEvent X.neg j = 0 := (firstEvent_zero_iff _ _).2 fun e => (hstuck e j).2
  have hpos : firstEvent X.pos j = 0 := (firstEvent_zero_iff _ _).2 fun e => (hstuck e j).1
  have hr : (filmGeometry o thickness z_low z kz kz0_rot id).ri j = 0 := by
    show reflIndices X.neg X.pos j = 0
    rw [refl_cases, hneg]; simp
  have ht : (filmGeometry o thickness z_low z kz kz0_rot id).ti j = 0 := by
    show transIndices X.neg X.pos j = 0
    rw [trans_cases, hpos]; simp
  have hs : (filmGeometry o thickness z_low z kz kz0_rot id).si j = nev + 1 := by
    show stuckIndices X.neg X.pos j = nev + 1
    rw [stuck_cases, hneg, hpos]; simp
  have e1 : sel w (filmGeometry o thickness z_low z kz kz0_rot id).ri j = 0 := sel_zero _ _ _ hr
  have e2 : sel w (filmGeometry o thickness z_low z kz kz0_rot id).ti j = 0 := sel_zero _ _ _ ht
  have e3 : sel w (filmGeometry o thickness z_low z kz kz0_rot id).si j = 1 := by
    rw [sel_pos w _ j (by rw [hs]; omega) (by rw [hs]; omega)]; exact hw _ _
  unfold RIn.a RIn.Pr RIn.Pt
  simp only [filmShadow, shadow, e1, e2, e3]
  ring

/-- C18 (refuted, concrete).  One photon, one event, index-matched film of thickness 10, step from z=1 to z=2: the call
returns NaN reflectance and transmittance. -/
theorem C18_nan_witness_refuted :
    ∃ rt, calcReflTransFilm (nev := 0) (nt := 1) demoOptics 10 0 ![![1], ![2]] (fun _ _ => 1) (fun _ _ => 1) none none
      false id = .ok rt ∧ rt.R = nan ∧ rt.T = nan := by
  apply C18_all_stuck_nan_refuted 10 0 _ rfl demo_ok (fun _ _ => rfl)
  intro X e j
  have hz : ∀ x : ℝ, 0 ≤ x → x < 10 → zFloor 10 0 x = 0 := by
    intro x h0 h1
    unfold zFloor
    rw [Int.floor_eq_iff]
    norm_num
    constructor
    · positivity
    · linarith
  have he : e = 0 := by apply Fin.ext; have := e.2; simp
  have hj : j = 0 := Subsingleton.elim _ _
  subst he; subst hj
  have h1 : zFloor 10 0 ((![![1], ![2]] : Fin 2 → Fin 1 → ℝ) (Fin.succ 0) 0) = 0 := hz _ (by simp) (by norm_num)
  have h2 : zFloor 10 0 ((![![1], ![2]] : Fin 2 → Fin 1 → ℝ) (Fin.castSucc 0) 0) = 0 :=
    hz _ (by simp) (by norm_num)
  have : X = findValidExitsFilm demoOptics.n_tir demoOptics.n_medium 10 0 ![![1], ![2]] (fun _ _ => 1) := rfl
  rw [this]
  simp only [findValidExitsFilm, h1, h2]
  simp

/-- Incident light that is not grazing enters with a positive fraction (no coverslip). -/
theorem inc_pos {nm ns k t : ℝ} (hm : 0 < nm) (hs : 0 < ns) (hk : |k| ≤ 1) (hk0 : k ≠ 0)
    (hin : ns * Real.sqrt (1 - k ^ 2) < nm)
    (ht : angleFilm (XF.cos (refraction1 (angleFilm (fin k)) (fin ns) (fin nm))) = fin t) :
    0 < passFrac nm none ns t := by
  rw [angleFilm_fin hk, refraction1_fin hm.ne', arccos_abs_sin] at ht
  have hsq : 0 ≤ Real.sqrt (1 - k ^ 2) := Real.sqrt_nonneg _
  set s := Real.sqrt (1 - k ^ 2) with hs_def
  have hle : ns / nm * s < 1 := by rw [div_mul_eq_mul_div, div_lt_one hm]; exact hin
  have hnn : 0 ≤ ns / nm * s := by positivity
  rw [if_neg (by rw [abs_of_nonneg hnn]; linarith), XF.cos_fin, angleFilm_fin (Real.abs_cos_le_one _), fin_inj,
    Real.cos_arcsin] at ht
  set q := ns / nm * s with hq
  have hroot : 0 < Real.sqrt (1 - q ^ 2) := Real.sqrt_pos.mpr (by nlinarith)
  have hsin : Real.sin t = q := by
    rw [← ht, Real.sin_arccos, sq_abs, Real.sq_sqrt (by nlinarith)]
    rw [show 1 - (1 - q ^ 2) = q ^ 2 by ring, Real.sqrt_sq hnn]
  have hmem := arccos_abs_mem (Real.sqrt (1 - q ^ 2))
  have h0 : 0 ≤ t := by rw [← ht]; exact hmem.1
  have h1 : t ≤ Real.pi / 2 := by rw [← ht]; exact hmem.2
  have hne : passFrac nm none ns t ≠ 0 := by
    rw [Ne, C08_pass_frac_zero_iff none hm hs (by intro x hx; cases hx) h0 h1]
    push Not
    have hs1 : s < 1 := by
      rw [hs_def, Real.sqrt_lt' one_pos]
      have : 0 < k ^ 2 := by positivity
      linarith
    have hnmq : nm * q = ns * s := by rw [hq]; field_simp
    refine ⟨?_, ?_, ?_⟩
    · rw [hsin]; simp only [Option.getD_none]; nlinarith
    · rw [hsin, hnmq]; nlinarith
    · intro h
      rw [h, Real.sin_pi_div_two] at hsin
      linarith
  exact lt_of_le_of_ne (passFrac_mem none hm (by intro x hx; cases hx) h0 h1).1 (Ne.symm hne)

/-- C18 (partial).  Without coverslips, goniometer and coarse roughness, and with incident light whose directions inside
the sample can come from the medium: the result is finite as soon as one trajectory is not undecided, i.e. it loses some
weight to absorption (all its weights are below 1), or it exits with positive weight.  Missing: the remaining batches, where
the code returns NaN (theorems above). -/
theorem C18_film_finite_partial {nev nt : ℕ} {o : Optics} (thickness z_low : ℝ) (z : Fin (nev + 2) → Fin nt → ℝ)
    {kz w : Fin (nev + 1) → Fin nt → ℝ} {filter : (Fin nt → ℕ) → Fin nt → ℕ}
    (H : FilmOK o kz w none id) (hf : o.n_front = none) (hb : o.n_back = none) (hle : o.n_medium ≤ o.n_tir)
    (hin : ∀ j, o.n_tir * Real.sqrt (1 - kz 0 j ^ 2) < o.n_medium) (hk0 : ∀ j, kz 0 j ≠ 0)
    (hdec : ∃ j, (∀ e, w e j < 1) ∨ ((∀ e, 0 < w e j) ∧
      let X := findValidExitsFilm o.n_tir o.n_medium thickness z_low z kz
      ∃ e, X.pos e j = true ∨ X.neg e j = true)) :
    ∃ rt R T, calcReflTransFilm o thickness z_low z kz w none none false filter = .ok rt ∧ rt.R = fin R ∧ rt.T = fin T ∧
      0 ≤ R ∧ 0 ≤ T ∧ R + T ≤ 1 := by
  rw [film_call_eq _ _ _ _ _ _ _ _ _ _ rfl]
  simp only [Bool.false_eq_true, if_false]
  rcases film_cases thickness z_low z none H false with ⟨⟨j, hj⟩, -⟩ | ⟨i, hi, hinc, hg, h⟩
  · exfalso
    unfold incAngleFilm at hj
    simp only at hj
    rw [angleFilm_fin (H.kz1 0 j), refraction1_fin H.medium.ne', arccos_abs_sin] at hj
    have hnn : 0 ≤ o.n_tir / o.n_medium * Real.sqrt (1 - kz 0 j ^ 2) :=
      mul_nonneg (div_nonneg H.tir.le H.medium.le) (Real.sqrt_nonneg _)
    have hle1 : o.n_tir / o.n_medium * Real.sqrt (1 - kz 0 j ^ 2) ≤ 1 := by
      rw [div_mul_eq_mul_div, div_le_one H.medium]; exact (hin j).le
    rw [if_neg (by rw [abs_of_nonneg hnn]; exact not_lt.mpr hle1), XF.cos_fin,
      angleFilm_fin (Real.abs_cos_le_one _)] at hj
    exact absurd hj (fin_ne_nan _)
  rcases h with ⟨hk, -⟩ | ⟨-, rt, h1, h2, h3, -⟩
  · exfalso
    set c := filmShadow o thickness z_low z kz w none id i with hc
    set X := findValidExitsFilm o.n_tir o.n_medium thickness z_low z kz with hX
    have hz := (Finset.sum_eq_zero_iff_of_nonneg
      (fun j _ => by linarith [hg.a0 j, hg.Pr0 j, hg.Pt0 j])).1 hk
    obtain ⟨j, hdec⟩ := hdec
    have hzj := hz j (Finset.mem_univ j)
    have ha := hg.a0 j
    have hpr := hg.Pr0 j
    have hpt := hg.Pt0 j
    have ha0 : c.a j = 0 := by linarith
    have hpr0 : c.Pr j = 0 := by linarith
    have hpt0 : c.Pt j = 0 := by linarith
    have hipos : 0 < i j := by
      obtain ⟨t, e1, -, -, e2⟩ := hinc j
      rw [e2, hf]
      exact inc_pos H.medium H.tir (H.kz1 0 j) (hk0 j) (hin j) e1
    obtain ⟨e, he1, he2⟩ := C14_outcomes_exact X.neg X.pos X.tir i w j
    have hca : fin (c.a j) = (calcOutcomeWeights (fun j => fin (i j)) (findEventIndices X.neg X.pos X.tir).1
        (findEventIndices X.neg X.pos X.tir).2.1 (findEventIndices X.neg X.pos X.tir).2.2.1
        (fun e j => fin (w e j))).absorb j := by
      simp only [calcOutcomeWeights, sel_fin, fin_mul, fin_sub]; rfl
    rw [he1, fin_inj, ha0] at hca
    have hwe : w e j = 1 := by
      rcases mul_eq_zero.mp hca.symm with h | h <;> linarith
    rcases hdec with hdec | ⟨hwpos, e', he'⟩
    · linarith [hdec e]
    · have hangle : ∀ (kk : ℝ), |kk| ≤ 1 → noTirFilm o.n_tir o.n_medium kk = true →
          0 < passFrac o.n_tir none o.n_medium (Real.arccos |kk|) := by
        intro kk h1 h2
        rw [noTir_iff H.tir H.medium hle h1] at h2
        have hm := arccos_abs_mem kk
        apply lt_of_le_of_ne (passFrac_mem none H.tir (by intro x hx; cases hx) hm.1 hm.2).1
        symm
        rw [Ne, C08_pass_frac_zero_iff none H.tir H.medium (by intro x hx; cases hx) hm.1 hm.2, arccos_abs_sin]
        push Not
        refine ⟨?_, h2, ?_⟩
        · simp only [Option.getD_none]; linarith
        · intro hh
          have hs := arccos_abs_sin kk
          rw [hh, Real.sin_pi_div_two] at hs
          rw [← hs] at h2
          linarith
      have hflag : ∀ (e : Fin (nev + 1)), X.neg e j = true ∨ X.pos e j = true →
          noTirFilm o.n_tir o.n_medium (kz e j) = true := by
        intro e h
        simp only [hX, findValidExitsFilm, Bool.and_eq_true] at h
        rcases h with h | h <;> exact h.1.2
      rcases he2 with ⟨hne, hr, -, -⟩ | ⟨hpe, -, ht, -⟩ | ⟨-, hn, -⟩
      · -- reflected
        have hrj : c.r j = i j * w e j := by
          have : fin (c.r j) = (calcOutcomeWeights (fun j => fin (i j)) (findEventIndices X.neg X.pos X.tir).1
            (findEventIndices X.neg X.pos X.tir).2.1 (findEventIndices X.neg X.pos X.tir).2.2.1
            (fun e j => fin (w e j))).refl j := by
            simp only [calcOutcomeWeights, sel_fin, fin_mul]; rfl
          rw [hr, fin_inj] at this
          exact this
        have hsel : noTirFilm o.n_tir o.n_medium (sel kz (filmGeometry o thickness z_low z kz none id).ri j) = true := by
          show noTirFilm o.n_tir o.n_medium (sel kz (reflIndices X.neg X.pos) j) = true
          have hne0 : reflIndices X.neg X.pos j ≠ 0 := by
            intro h0
            have : sel w (reflIndices X.neg X.pos) j = 0 := sel_zero _ _ _ h0
            have h3 : c.r j = i j * sel w (reflIndices X.neg X.pos) j := rfl
            rw [this, mul_zero, hrj, hwe] at h3
            linarith
          have hfe := (C10_first_exit (by omega : 1 ≤ nev + 1) X.neg X.pos X.tir j).1 _
            (Nat.one_le_iff_ne_zero.mpr hne0)
          have hfe' := hfe.1 rfl
          obtain ⟨e2, h2, h3⟩ := hfe'.1.2.2.1
          rw [sel_pos kz _ j (Nat.pos_of_ne_zero hne0) (by omega)]
          have : (⟨reflIndices X.neg X.pos j - 1, by omega⟩ : Fin (nev + 1)) = e2 := by
            apply Fin.ext; show reflIndices X.neg X.pos j - 1 = e2.val; omega
          rw [this]
          exact hflag e2 (Or.inl h3)
        have hp := hangle _ (sel_abs_le _ H.kz1 j) hsel
        have : c.Pr j = c.r j * passFrac o.n_tir o.n_front o.n_medium
          (Real.arccos |sel kz (filmGeometry o thickness z_low z kz none id).ri j|) := rfl
        rw [hpr0, hrj, hwe, hf] at this
        have h5 := mul_pos hipos hp
        nlinarith
      · have htj : c.t j = i j * w e j := by
          have : fin (c.t j) = (calcOutcomeWeights (fun j => fin (i j)) (findEventIndices X.neg X.pos X.tir).1
            (findEventIndices X.neg X.pos X.tir).2.1 (findEventIndices X.neg X.pos X.tir).2.2.1
            (fun e j => fin (w e j))).trans j := by
            simp only [calcOutcomeWeights, sel_fin, fin_mul]; rfl
          rw [ht, fin_inj] at this
          exact this
        have hsel : noTirFilm o.n_tir o.n_medium (sel kz (filmGeometry o thickness z_low z kz none id).ti j) = true := by
          show noTirFilm o.n_tir o.n_medium (sel kz (transIndices X.neg X.pos) j) = true
          have hne0 : transIndices X.neg X.pos j ≠ 0 := by
            intro h0
            have : sel w (transIndices X.neg X.pos) j = 0 := sel_zero _ _ _ h0
            have h3 : c.t j = i j * sel w (transIndices X.neg X.pos) j := rfl
            rw [this, mul_zero, htj, hwe] at h3
            linarith
          have hfe := (C10_first_exit (by omega : 1 ≤ nev + 1) X.neg X.pos X.tir j).2.1 _
            (Nat.one_le_iff_ne_zero.mpr hne0)
          have hfe' := hfe.1 rfl
          obtain ⟨e2, h2, h3⟩ := hfe'.1.2.2.1
          rw [sel_pos kz _ j (Nat.pos_of_ne_zero hne0) (by omega)]
          have : (⟨transIndices X.neg X.pos j - 1, by omega⟩ : Fin (nev + 1)) = e2 := by
            apply Fin.ext; show transIndices X.neg X.pos j - 1 = e2.val; omega
          rw [this]
          exact hflag e2 (Or.inr h3)
        have hp := hangle _ (sel_abs_le _ H.kz1 j) hsel
        have : c.Pt j = c.t j * passFrac o.n_tir o.n_back o.n_medium
          (Real.arccos |sel kz (filmGeometry o thickness z_low z kz none id).ti j|) := rfl
        rw [hpt0, htj, hwe, hb] at this
        have h5 := mul_pos hipos hp
        nlinarith
      · have := hn e'
        rcases he' with h | h
        · rw [this.2] at h; exact absurd h (by simp)
        · rw [this.1] at h; exact absurd h (by simp)
  · exact ⟨rt, _, _, h1, h2, h3, filmR_nonneg hg _ _ _ _ (fun j => (irOf_mem (hi j).2).1),
        filmT_nonneg hg _ _ _, filmRT_le H.nt_pos hg _ _ _ _ (fun j => (irOf_mem (hi j).2).2)⟩

/-- Non-vacuity of C15–C18: the demonstration photon crossing the far face, so the call returns numbers. -/
example : ∃ rt R T, calcReflTransFilm (nev := 0) (nt := 1) demoOptics 10 0 ![![1], ![12]] (fun _ _ => 1) (fun _ _ => 1)
    none none false id = .ok rt ∧ rt.R = fin R ∧ rt.T = fin T ∧ 0 ≤ R ∧ 0 ≤ T ∧ R + T ≤ 1 := by
  apply C18_film_finite_partial 10 0 _ demo_ok rfl rfl le_rfl
  · intro j; simp [demoOptics]
  · intro j; norm_num
  · refine ⟨0, Or.inr ⟨fun e => one_pos, 0, Or.inl ?_⟩⟩
    have := (C11_film_exit_face (nev := 1) (nt := 1) (ns := 1) (nm := 1) (th := 10) (zl := 0) one_pos one_pos le_rfl
      (by norm_num) ![![1], ![12]] (fun _ _ => 1) (by simp) 0 0).1
    refine this.2 ⟨by simp, 1, ?_, ?_⟩
    · left
      refine ⟨by norm_num, by norm_num, ?_⟩
      intro cc hc
      have : (0:ℝ) < cc := lt_trans (by norm_num) hc
      exact_mod_cast this
    · show 0 + fold ((1 : ℤ) : ℝ) * (10 - 0) = 10
      rw [fold_int]; norm_num

/-! ## C19 -/

/-- One unfolding of the recursion, when the bookkeeping of this depth succeeds. -/
theorem calcRec_eq {nt : ℕ} (b : Boundary) (on : Optics) (sim : ℕ → Sim nt) (kz0_refl : Option (Fin nt → ℝ)) (det : Bool)
    (ms : ℝ) (o : Optics) (M d : ℕ) (W : Fin nt → XF) {l : Level nt}
    (hl : level o (sim d).geo kz0_refl (decide (0 < d)) (fun e j => W j * fin ((sim d).att e j)) = .ok l) :
    calcRec b on sim kz0_refl det ms o M d W =
      if d < M ∧ (fin ms : XF) < l.totalStuck then
        (calcRec b on sim none false ms on defaultMaxCallDepth (d + 1)
          (fun j => l.exit.reflFresnel j + l.exit.transFresnel j + l.out.stuck j)).map fun r =>
            { rt := { R := r.rt.R + ∑ j, (l.det.refl j + l.det.incRefl j) / fin nt
                      T := r.rt.T + ∑ j, l.det.trans j / fin nt
                      reflPer := fun j => r.rt.reflPer j + (l.det.refl j + l.det.incRefl j) / fin nt
                      transPer := fun j => r.rt.transPer j + l.det.trans j / fin nt }
              nested := r.nested + 1 }
      else .ok { rt := distribute l.exit l.det l.out.stuck b det, nested := 0 } := by
  rw [calcRec, hl]
  simp only [bind, Except.bind, pure, Except.pure]
  split
  · cases calcRec b on sim none false ms on defaultMaxCallDepth (d + 1)
      (fun j => l.exit.reflFresnel j + l.exit.transFresnel j + l.out.stuck j) <;> rfl
  · rfl

theorem calcRec_level {nt : ℕ} {b : Boundary} {on : Optics} {sim : ℕ → Sim nt} {kz0_refl : Option (Fin nt → ℝ)}
    {det : Bool} {ms : ℝ} {o : Optics} {M d : ℕ} {W : Fin nt → XF} {r : RecResult nt}
    (h : calcRec b on sim kz0_refl det ms o M d W = .ok r) :
    ∃ l, level o (sim d).geo kz0_refl (decide (0 < d)) (fun e j => W j * fin ((sim d).att e j)) = .ok l := by
  cases hl : level o (sim d).geo kz0_refl (decide (0 < d)) (fun e j => W j * fin ((sim d).att e j)) with
  | ok l => exact ⟨l, rfl⟩
  | error e =>
    rw [calcRec, hl] at h
    exact (nomatch h)

/-- with the default depth limit, at most `20 - d` further calls are made from depth `d` -/
theorem nested_default {nt : ℕ} (b : Boundary) (on : Optics) (sim : ℕ → Sim nt) (ms : ℝ) (k : ℕ) :
    ∀ (kz0_refl : Option (Fin nt → ℝ)) (det : Bool) (o : Optics) (d : ℕ) (W : Fin nt → XF) (r : RecResult nt),
      20 - d = k → calcRec b on sim kz0_refl det ms o defaultMaxCallDepth d W = .ok r → r.nested ≤ k := by
  induction k with
  | zero =>
    intro kz0_refl det o d W r hk h
    obtain ⟨l, hl⟩ := calcRec_level h
    rw [calcRec_eq _ _ _ _ _ _ _ _ _ _ hl, if_neg (by rintro ⟨h1, -⟩; unfold defaultMaxCallDepth at h1; omega)] at h
    injection h with h
    rw [← h]
  | succ k ih =>
    intro kz0_refl det o d W r hk h
    obtain ⟨l, hl⟩ := calcRec_level h
    rw [calcRec_eq _ _ _ _ _ _ _ _ _ _ hl] at h
    split at h
    · cases hr : calcRec b on sim none false ms on defaultMaxCallDepth (d + 1)
          (fun j => l.exit.reflFresnel j + l.exit.transFresnel j + l.out.stuck j) with
      | error e => rw [hr] at h; exact (nomatch h)
      | ok r' =>
        rw [hr] at h
        simp only [Except.map] at h
        injection h with h
        have := ih _ _ _ _ _ _ (by omega) hr
        rw [← h]
        show r'.nested + 1 ≤ k + 1
        omega
    · injection h with h
      rw [← h]
      exact Nat.zero_le _

/-- C19 (partial).  The recursion terminates (the model is a total function, its measure checked by Lean) and:
with `max_call_depth = 0` nothing is re-run; whatever `max_call_depth` is, at most 20 re-runs are made; nothing is re-run
when the undecided fraction of light is at most `max_stuck`.  Missing: for `max_call_depth` between 1 and 19 the bound is
still 20, not `max_call_depth` (refuted below). -/
theorem C19_depth_bounded_partial {nt : ℕ} {b : Boundary} {on : Optics} {sim : ℕ → Sim nt}
    {kz0_refl : Option (Fin nt → ℝ)} {det : Bool} {ms : ℝ} {o : Optics} {M : ℕ} {W : Fin nt → XF} {r : RecResult nt}
    (h : calcRec b on sim kz0_refl det ms o M 0 W = .ok r) :
    r.nested ≤ 20 ∧ (M = 0 → r.nested = 0) ∧ (20 ≤ M → r.nested ≤ M) ∧
    (∀ l, level o (sim 0).geo kz0_refl false (fun e j => W j * fin ((sim 0).att e j)) = .ok l →
      (r.nested = 0 ↔ M = 0 ∨ ¬ (fin ms : XF) < l.totalStuck)) := by
  obtain ⟨l, hl⟩ := calcRec_level h
  rw [calcRec_eq _ _ _ _ _ _ _ _ _ _ hl] at h
  have hl' : level o (sim 0).geo kz0_refl false (fun e j => W j * fin ((sim 0).att e j)) = .ok l := by simpa using hl
  split at h
  · next hc =>
    cases hr : calcRec b on sim none false ms on defaultMaxCallDepth (0 + 1)
          (fun j => l.exit.reflFresnel j + l.exit.transFresnel j + l.out.stuck j) with
    | error e => rw [hr] at h; exact (nomatch h)
    | ok r' =>
      rw [hr] at h
      simp only [Except.map] at h
      injection h with h
      have hb := nested_default b on sim ms 19 none false on 1 _ _ rfl hr
      have hn : r.nested = r'.nested + 1 := by rw [← h]
      refine ⟨by omega, fun h0 => by omega, fun _ => by omega, ?_⟩
      intro l1 hl1
      rw [hl'] at hl1
      injection hl1 with hl1
      subst hl1
      constructor
      · intro h0; omega
      · rintro (h0 | h0)
        · omega
        · exact absurd hc.2 h0
  · next hc =>
    injection h with h
    have hn : r.nested = 0 := by rw [← h]
    refine ⟨by omega, fun _ => hn, fun _ => by omega, ?_⟩
    intro l1 hl1
    rw [hl'] at hl1
    injection hl1 with hl1
    subst hl1
    refine ⟨fun _ => ?_, fun _ => hn⟩
    by_contra hcon
    push Not at hcon
    exact hc ⟨by omega, hcon.2⟩

/-- a generation in which the only photon never leaves the sphere and is never absorbed -/
noncomputable def stuckSim : ℕ → Sim 1 := fun _ =>
  { nev := 1
    att := fun _ _ => 1
    geo := { ri := fun _ => 0, ti := fun _ => 0, si := fun _ => 1, thInc := fun _ => fin 0, thIncDet := fun _ => fin 0
             thRefl := fun _ => fin 0, thTrans := fun _ => fin 0 } }

theorem stuck_level (d : ℕ) (ω : ℝ) :
    ∃ l, level demoOptics (stuckSim d).geo none (decide (0 < d)) (fun e j => (fin ω : XF) * fin ((stuckSim d).att e j)) = .ok l ∧
      ∀ i, i = (if 0 < d then 1 else 1 / (1 + EPS)) →
        l.totalStuck = fin (i * ω) ∧
        (fun j => l.exit.reflFresnel j + l.exit.transFresnel j + l.out.stuck j) = fun _ => fin (i * ω) := by
  have hpi := Real.pi_pos
  set i : ℝ := if 0 < d then 1 else 1 / (1 + EPS) with hi
  have hinc : incPassFrac (decide (0 < d)) (stuckSim d).geo.thInc demoOptics.n_medium demoOptics.n_front demoOptics.n_tir =
      .ok (fun _ => fin i) := by
    unfold incPassFrac
    by_cases h : 0 < d
    · simp only [h, decide_true, if_true, hi]
    · simp only [h, decide_false, Bool.false_eq_true, if_false, hi]
      show fresnelPassFrac (fun _ : Fin 1 => fin 0) 1 none 1 = _
      rw [fresnelPassFrac_fin (fun _ => 0) none one_pos (by intro x hx; cases hx) (fun _ => ⟨le_rfl, by linarith⟩)]
      congr 1
      funext _
      rw [C08_pass_frac_single one_pos le_rfl (by linarith), (rMean_same one_pos le_rfl (by linarith)).1,
        (rMean_same one_pos le_rfl (by linarith)).2]
      norm_num
  obtain ⟨ir, hir, -, -⟩ := incReflIs_exists demoOptics (stuckSim d).geo none (fun _ => i) (by
    intro _
    rw [hi]
    have := EPS_pos
    show (if 0 < d then (1:ℝ) else 1 / (1 + EPS)) ≤ 1
    split
    · exact le_rfl
    · rw [div_le_one (by linarith)]; linarith)
  obtain ⟨l, hl, hL⟩ := level_fin demoOptics (stuckSim d).geo none (decide (0 < d)) (fun (_ : Fin 1) _ => ω) (fun _ => i)
    (fun _ => 0) (fun _ => 0) ir one_pos one_pos (by intro x hx; cases hx) (by intro x hx; cases hx) hinc rfl rfl
    (fun _ => ⟨le_rfl, by linarith⟩) (fun _ => ⟨le_rfl, by linarith⟩) hir
  refine ⟨l, ?_, ?_⟩
  · rw [← hl]
    congr 1
    funext e j
    show (fin ω : XF) * fin 1 = fin ω
    rw [fin_mul, mul_one]
  · rintro _ rfl
    set c := shadow demoOptics (stuckSim d).geo (fun (_ : Fin 1) _ => ω) (fun _ => i) (fun _ => 0) (fun _ => 0) with hc
    have hr : ∀ j, c.r j = 0 := by
      intro j
      show i * sel (fun (_ : Fin 1) (_ : Fin 1) => ω) (fun _ => 0) j = 0
      rw [sel_zero _ _ _ rfl, mul_zero]
    have ht : ∀ j, c.t j = 0 := by
      intro j
      show i * sel (fun (_ : Fin 1) (_ : Fin 1) => ω) (fun _ => 0) j = 0
      rw [sel_zero _ _ _ rfl, mul_zero]
    have hs : ∀ j, c.s j = i * ω := by
      intro j
      show i * sel (fun (_ : Fin 1) (_ : Fin 1) => ω) (fun _ => 1) j = i * ω
      rw [sel_pos _ _ _ one_pos (by norm_num)]
    have hfr : ∀ j, c.fr j = 0 := by intro j; unfold RIn.fr RIn.Pr; rw [hr]; ring
    have hft : ∀ j, c.ft j = 0 := by intro j; unfold RIn.ft RIn.Pt; rw [ht]; ring
    constructor
    · rw [hL.total]
      simp only [hfr, hft, hs]
      rw [fin_div _ (by norm_num)]
      simp
    · funext j
      rw [hL.reflFresnel, hL.transFresnel, hL.stuck]
      simp only [hfr, hft, hs, fin_add, zero_add]

theorem stuck_nested (k : ℕ) : ∀ d, 20 - d = k → 0 < d → d ≤ 20 → ∀ ω : ℝ, 1 / 2 < ω →
    ∃ r, calcRec .sphere demoOptics stuckSim none false (1 / 100) demoOptics defaultMaxCallDepth d (fun _ => fin ω) = .ok r ∧
      r.nested = k := by
  induction k with
  | zero =>
    intro d hd h0 h20 ω hω
    obtain ⟨l, hl, -⟩ := stuck_level d ω
    rw [calcRec_eq _ _ _ _ _ _ _ _ _ _ hl, if_neg (by rintro ⟨h1, -⟩; unfold defaultMaxCallDepth at h1; omega)]
    exact ⟨_, rfl, rfl⟩
  | succ k ih =>
    intro d hd h0 h20 ω hω
    obtain ⟨l, hl, hl2⟩ := stuck_level d ω
    obtain ⟨h1, h2⟩ := hl2 1 (by rw [if_pos h0])
    rw [one_mul] at h1 h2
    rw [calcRec_eq _ _ _ _ _ _ _ _ _ _ hl, if_pos, h2]
    · obtain ⟨r, hr, hn⟩ := ih (d + 1) (by omega) (by omega) (by omega) ω hω
      rw [hr]
      refine ⟨_, rfl, ?_⟩
      show r.nested + 1 = k + 1
      omega
    · refine ⟨by unfold defaultMaxCallDepth; omega, ?_⟩
      rw [h1, fin_lt]; linarith

/-- C19 (refuted).  `max_call_depth=1` does not limit the re-runs to one: it is not passed on to nested calls.  With a photon
that stays in the sphere, 20 re-runs are made. -/
theorem C19_max_call_depth_ignored_refuted :
    ∃ r, calcRec .sphere demoOptics stuckSim none false (1 / 100) demoOptics 1 0 (fun _ => fin 1) = .ok r ∧
      r.nested = 20 := by
  obtain ⟨l, hl, hl2⟩ := stuck_level 0 1
  obtain ⟨h1, h2⟩ := hl2 (1 / (1 + EPS)) (by rw [if_neg (by omega)])
  rw [mul_one] at h1 h2
  have he := EPS_pos
  have hbig : 1 / 2 < 1 / (1 + EPS) := by
    rw [div_lt_div_iff₀ (by norm_num) (by linarith)]
    unfold EPS; norm_num
  rw [calcRec_eq _ _ _ _ _ _ _ _ _ _ hl, if_pos, h2]
  · obtain ⟨r, hr, hn⟩ := stuck_nested 19 1 rfl one_pos (by norm_num) (1 / (1 + EPS)) hbig
    rw [hr]
    refine ⟨_, rfl, ?_⟩
    show r.nested + 1 = 20
    omega
  · refine ⟨by norm_num, ?_⟩
    rw [h1, fin_lt]; linarith

/-! ## C20 -/

/-- Hypotheses on the simulated generations: outcomes exclusive, exit angles are numbers (an angle above π/2 makes
`fresnel_reflection` raise), attenuation factors in [0,1]. -/
structure SimOK {nt : ℕ} (s : Sim nt) : Prop where
  att01 : ∀ e j, 0 ≤ s.att e j ∧ s.att e j ≤ 1
  excl : ∀ j, (s.geo.ti j = 0 ∧ s.geo.si j = 0) ∨ (s.geo.ri j = 0 ∧ s.geo.si j = 0) ∨ (s.geo.ri j = 0 ∧ s.geo.ti j = 0)
  inc : ∃ θ : Fin nt → ℝ, s.geo.thInc = (fun j => fin (θ j)) ∧ ∀ j, 0 ≤ θ j
  refl : ∃ θ : Fin nt → ℝ, s.geo.thRefl = (fun j => fin (θ j)) ∧ ∀ j, 0 ≤ θ j
  trans : ∃ θ : Fin nt → ℝ, s.geo.thTrans = (fun j => fin (θ j)) ∧ ∀ j, 0 ≤ θ j

/-- positive indices -/
structure OpticsOK (o : Optics) : Prop where
  medium : 0 < o.n_medium
  tir : 0 < o.n_tir
  front : ∀ x, o.n_front = some x → 0 < x
  back : ∀ x, o.n_back = some x → 0 < x

theorem passFrac_angle_le {n : ℕ} {θ : Fin n → ℝ} {nb na : ℝ} {ni : Option ℝ} {p : Fin n → XF}
    (h : fresnelPassFrac (fun j => fin (θ j)) nb ni na = .ok p) (j : Fin n) : θ j ≤ Real.pi / 2 := by
  by_contra hc
  push Not at hc
  have he : ∃ i : Fin n, (fin (Real.pi / 2) : XF) < (fun j => (fin (θ j) : XF)) i := ⟨j, by show (fin (Real.pi / 2) : XF) < fin (θ j); rw [fin_lt]; exact hc⟩
  have hf : ∀ m, fresnelReflection nb m (fun j => fin (θ j)) = .error PyErr.valueError := by
    intro m
    unfold fresnelReflection
    exact if_pos he
  unfold fresnelPassFrac fresnelTransmission at h
  simp only [hf, bind, Except.bind] at h
  exact (nomatch h)

/-- what one depth contributes -/
theorem rec_level_fin {nt : ℕ} {o : Optics} (ho : OpticsOK o) {s : Sim nt} (hs : SimOK s)
    (kz0_refl : Option (Fin nt → ℝ)) (ft : Bool) (ω : Fin nt → ℝ) (hω : ∀ j, 0 ≤ ω j ∧ ω j ≤ 1) {l : Level nt}
    (hl : level o s.geo kz0_refl ft (fun e j => (fin (ω j) : XF) * fin (s.att e j)) = .ok l) :
    ∃ (c : RIn nt) (ir : Fin nt → ℝ), LevelFin l c o.n_sample o.n_medium o.detection_angle ft ir ∧ c.Good ∧
      (∀ j, 0 ≤ ir j ∧ ir j ≤ 1 - c.i j) ∧ (∀ j, c.r j + c.t j + c.s j ≤ c.i j * ω j) ∧
      (ft = true → ∀ j, c.i j = 1) := by
  obtain ⟨θi, hθi, hθi0⟩ := hs.inc
  obtain ⟨θr, hθr, hθr0⟩ := hs.refl
  obtain ⟨θt, hθt, hθt0⟩ := hs.trans
  -- incident fraction
  have hi : ∃ i : Fin nt → ℝ, incPassFrac ft s.geo.thInc o.n_medium o.n_front o.n_tir = .ok (fun j => fin (i j)) ∧
      (∀ j, 0 ≤ i j ∧ i j ≤ 1) ∧ (ft = true → ∀ j, i j = 1) := by
    cases ft with
    | true => exact ⟨fun _ => 1, by simp [incPassFrac], fun _ => by norm_num, fun _ _ => rfl⟩
    | false =>
      unfold level at hl
      simp only [incPassFrac, Bool.false_eq_true, if_false, hθi] at hl ⊢
      cases hp : fresnelPassFrac (fun j => fin (θi j)) o.n_medium o.n_front o.n_tir with
      | error e => rw [hp] at hl; exact (nomatch hl)
      | ok p =>
        have hle := passFrac_angle_le hp
        rw [fresnelPassFrac_fin _ _ ho.medium ho.front (fun j => ⟨hθi0 j, hle j⟩)] at hp
        injection hp with hp
        exact ⟨fun j => passFrac o.n_medium o.n_front o.n_tir (θi j), by rw [hp],
          fun j => passFrac_mem _ ho.medium ho.front (hθi0 j) (hle j), fun h => (nomatch h)⟩
  obtain ⟨i, hi, hi01, hi1⟩ := hi
  have hle : (∀ j, θr j ≤ Real.pi / 2) ∧ ∀ j, θt j ≤ Real.pi / 2 := by
    unfold level at hl
    rw [hi] at hl
    simp only [bind, Except.bind, fresnelCorrectExit, hθr, hθt] at hl
    cases hp : fresnelPassFrac (fun j => fin (θr j)) o.n_tir o.n_front o.n_medium with
    | error e => rw [hp] at hl; exact (nomatch hl)
    | ok p =>
      rw [hp] at hl
      simp only at hl
      cases hq : fresnelPassFrac (fun j => fin (θt j)) o.n_tir o.n_back o.n_medium with
      | error e => rw [hq] at hl; exact (nomatch hl)
      | ok q => exact ⟨passFrac_angle_le hp, passFrac_angle_le hq⟩
  obtain ⟨ir, hir, hir0, hir1⟩ := incReflIs_exists o s.geo kz0_refl i (fun j => (hi01 j).2)
  obtain ⟨l', hl', hL⟩ := level_fin o s.geo kz0_refl ft (fun e j => ω j * s.att e j) i θr θt ir ho.tir ho.medium ho.front
    ho.back hi hθr hθt (fun j => ⟨hθr0 j, hle.1 j⟩) (fun j => ⟨hθt0 j, hle.2 j⟩) hir
  have hll : l' = l := by
    have : level o s.geo kz0_refl ft (fun e j => (fin (ω j) : XF) * fin (s.att e j)) = .ok l' := by
      rw [← hl']
      congr 1
    rw [hl] at this
    injection this with this
    exact this.symm
  subst hll
  have hw : ∀ (e : Fin s.nev) j, 0 ≤ ω j * s.att e j ∧ ω j * s.att e j ≤ 1 := fun e j =>
    ⟨mul_nonneg (hω j).1 (hs.att01 e j).1, by nlinarith [hω j, hs.att01 e j]⟩
  refine ⟨_, ir, hL, shadow_good ho.tir ho.front ho.back (fun j => ⟨hθr0 j, hle.1 j⟩) (fun j => ⟨hθt0 j, hle.2 j⟩) hi01 hw
    hs.excl, fun j => ⟨hir0 j, hir1 j⟩, ?_, hi1⟩
  intro j
  show i j * sel _ s.geo.ri j + i j * sel _ s.geo.ti j + i j * sel _ s.geo.si j ≤ i j * ω j
  have hsel : ∀ (idx : Fin nt → ℕ), 0 ≤ sel (fun e j => ω j * s.att e j) idx j ∧
      sel (fun e j => ω j * s.att e j) idx j ≤ ω j := by
    intro idx
    unfold sel
    split
    · exact ⟨(hw _ j).1, by nlinarith [hω j, hs.att01 ⟨idx j - 1, by omega⟩ j]⟩
    · exact ⟨le_rfl, (hω j).1⟩
  have hz : ∀ (idx : Fin nt → ℕ), idx j = 0 → sel (fun e j => ω j * s.att e j) idx j = 0 := fun idx h => sel_zero _ idx j h
  have hij := hi01 j
  rcases hs.excl j with ⟨h1, h2⟩ | ⟨h1, h2⟩ | ⟨h1, h2⟩ <;> rw [hz _ h1, hz _ h2]
  · nlinarith [hsel s.geo.ri]
  · nlinarith [hsel s.geo.ti]
  · nlinarith [hsel s.geo.si]

/-- the final distribution at a sphere -/
theorem distribute_sphere_fin {nt : ℕ} (hnt : 0 < nt) {l : Level nt} {c : RIn nt} {ns nm th : ℝ} {ft : Bool}
    {ir : Fin nt → ℝ} (h : LevelFin l c ns nm th ft ir) (hg : c.Good) (hir : ∀ j, 0 ≤ ir j) :
    ∃ R T : ℝ, (distribute l.exit l.det l.out.stuck .sphere false).R = fin R ∧
      (distribute l.exit l.det l.out.stuck .sphere false).T = fin T ∧ 0 ≤ R ∧ 0 ≤ T ∧
      R + T ≤ ∑ j, (c.r j + c.t j + c.s j + ir j) / nt := by
  have hn : (0:ℝ) < nt := by exact_mod_cast hnt
  have hn0 := hn.ne'
  set x : Fin nt → ℝ := fun j => 1 / 2 * (c.fr j + c.ft j + c.s j) with hx
  have hx0 : ∀ j, 0 ≤ x j := fun j => by
    have := hg.fr0 j; have := hg.ft0 j; have := hg.s0 j
    simp only [hx]; linarith
  refine ⟨∑ j, (c.dr ns nm th j + x j * c.rdf ns nm th + ir j) / nt, ∑ j, (c.dt ns nm th j + x j * c.tdf ns nm th) / nt,
    ?_, ?_, ?_, ?_, ?_⟩
  · simp only [distribute, h.reflFresnel, h.transFresnel, h.stuck, h.refl, h.incRefl, h.rdf, Bool.false_eq_true, if_false,
      fin_add, fin_mul, fin_div _ hn0, sum_fin, hx]
  · simp only [distribute, h.reflFresnel, h.transFresnel, h.stuck, h.trans, h.tdf,
      fin_add, fin_mul, fin_div _ hn0, sum_fin, hx]
    congr 1
    apply Finset.sum_congr rfl
    intro j _
    ring
  · apply Finset.sum_nonneg
    intro j _
    have := mul_nonneg (hx0 j) (hg.rdf0 ns nm th)
    have := hg.dr0 ns nm th j
    have := hir j
    positivity
  · apply Finset.sum_nonneg
    intro j _
    have := mul_nonneg (hx0 j) (hg.tdf0 ns nm th)
    have := hg.dt0 ns nm th j
    positivity
  · rw [← Finset.sum_add_distrib]
    apply Finset.sum_le_sum
    intro j _
    rw [← add_div]
    apply div_le_div_of_nonneg_right _ hn.le
    have e1 : x j * c.rdf ns nm th ≤ x j := by nlinarith [hx0 j, hg.rdf1 ns nm th]
    have e2 : x j * c.tdf ns nm th ≤ x j := by nlinarith [hx0 j, hg.tdf1 ns nm th]
    have e3 := hg.dr_le ns nm th j
    have e4 := hg.dt_le ns nm th j
    have e5 : x j + x j = c.r j - c.Pr j + (c.t j - c.Pt j) + c.s j := by
      simp only [hx]; unfold RIn.fr RIn.ft; ring
    linarith

/-- C20 (general form).  At any depth `d`, for photons of initial weights `ω`, the accumulated reflectance and transmittance
are non-negative numbers and their sum is at most the mean of `i·ω + (1 - i)`, where `i` is the fraction of light that
entered (1 for re-runs). -/
theorem rec_bound {nt : ℕ} (hnt : 0 < nt) {on : Optics} (hon : OpticsOK on) {sim : ℕ → Sim nt} (hsim : ∀ d, SimOK (sim d))
    (ms : ℝ) (k : ℕ) :
    ∀ (o : Optics), OpticsOK o → ∀ (kz0_refl : Option (Fin nt → ℝ)) (M d : ℕ) (ω : Fin nt → ℝ) (r : RecResult nt),
      2 * (20 - d) + min 1 (M - d) = k → (∀ j, 0 ≤ ω j ∧ ω j ≤ 1) →
      calcRec .sphere on sim kz0_refl false ms o M d (fun j => fin (ω j)) = .ok r →
      ∃ (R T : ℝ) (i : Fin nt → ℝ), r.rt.R = fin R ∧ r.rt.T = fin T ∧ 0 ≤ R ∧ 0 ≤ T ∧ (∀ j, 0 ≤ i j ∧ i j ≤ 1) ∧
        (0 < d → ∀ j, i j = 1) ∧ R + T ≤ ∑ j, (i j * ω j + (1 - i j)) / nt := by
  have hn : (0:ℝ) < nt := by exact_mod_cast hnt
  have hn0 := hn.ne'
  induction k using Nat.strong_induction_on with
  | _ k ih =>
    intro o ho kz0_refl M d ω r hk hω h
    obtain ⟨l, hl⟩ := calcRec_level h
    rw [calcRec_eq _ _ _ _ _ _ _ _ _ _ hl] at h
    obtain ⟨c, ir, hL, hg, hir, hsum, h1⟩ := rec_level_fin ho (hsim d) kz0_refl _ ω hω hl
    have hi01 : ∀ j, 0 ≤ c.i j ∧ c.i j ≤ 1 := fun j => ⟨hg.i0 j, hg.i1 j⟩
    have hd1 : 0 < d → ∀ j, c.i j = 1 := fun hd => h1 (by simpa using hd)
    split at h
    · next hc =>
      have hW : (fun j => l.exit.reflFresnel j + l.exit.transFresnel j + l.out.stuck j) =
          fun j => (fin (c.fr j + c.ft j + c.s j) : XF) := by
        funext j
        rw [hL.reflFresnel, hL.transFresnel, hL.stuck, fin_add, fin_add]
      rw [hW] at h
      have hω' : ∀ j, 0 ≤ c.fr j + c.ft j + c.s j ∧ c.fr j + c.ft j + c.s j ≤ 1 := by
        intro j
        have := hg.fr0 j; have := hg.ft0 j; have := hg.s0 j
        have := hg.Pr0 j; have := hg.Pt0 j
        have := hsum j
        have : c.i j * ω j ≤ 1 := by nlinarith [hi01 j, hω j]
        have e1 : c.fr j = c.r j - c.Pr j := rfl
        have e2 : c.ft j = c.t j - c.Pt j := rfl
        constructor <;> linarith
      cases hr : calcRec .sphere on sim none false ms on defaultMaxCallDepth (d + 1)
          (fun j => (fin (c.fr j + c.ft j + c.s j) : XF)) with
      | error e => rw [hr] at h; exact (nomatch h)
      | ok r' =>
        rw [hr] at h
        simp only [Except.map] at h
        injection h with h
        have hlt : 2 * (20 - (d + 1)) + min 1 (defaultMaxCallDepth - (d + 1)) < k := by
          have := hc.1
          unfold defaultMaxCallDepth
          omega
        obtain ⟨R', T', i', hR', hT', hR0, hT0, -, hi1', hb⟩ := ih _ hlt on hon none defaultMaxCallDepth (d + 1) _ r' rfl
          hω' hr
        have hi1'' := hi1' (by omega)
        refine ⟨R' + ∑ j, (c.dr o.n_sample o.n_medium o.detection_angle j + ir j) / nt,
          T' + ∑ j, c.dt o.n_sample o.n_medium o.detection_angle j / nt, c.i, ?_, ?_, ?_, ?_, hi01, hd1, ?_⟩
        · rw [← h]
          simp only [hR', hL.refl, hL.incRefl, fin_add, fin_div _ hn0, sum_fin]
        · rw [← h]
          simp only [hT', hL.trans, fin_add, fin_div _ hn0, sum_fin]
        · apply add_nonneg hR0
          apply Finset.sum_nonneg
          intro j _
          have := hg.dr0 o.n_sample o.n_medium o.detection_angle j
          have := (hir j).1
          positivity
        · apply add_nonneg hT0
          apply Finset.sum_nonneg
          intro j _
          have := hg.dt0 o.n_sample o.n_medium o.detection_angle j
          positivity
        · have hb' : R' + T' ≤ ∑ j, (c.fr j + c.ft j + c.s j) / nt := by
            refine hb.trans (le_of_eq ?_)
            apply Finset.sum_congr rfl
            intro j _
            rw [hi1'' j]; ring
          have : ∑ j, (c.fr j + c.ft j + c.s j) / nt +
              (∑ j, (c.dr o.n_sample o.n_medium o.detection_angle j + ir j) / nt +
              ∑ j, c.dt o.n_sample o.n_medium o.detection_angle j / nt) ≤ ∑ j, (c.i j * ω j + (1 - c.i j)) / nt := by
            rw [← Finset.sum_add_distrib, ← Finset.sum_add_distrib]
            apply Finset.sum_le_sum
            intro j _
            rw [← add_div, ← add_div]
            apply div_le_div_of_nonneg_right _ hn.le
            have e1 : c.fr j = c.r j - c.Pr j := rfl
            have e2 : c.ft j = c.t j - c.Pt j := rfl
            have e3 := hg.dr_le o.n_sample o.n_medium o.detection_angle j
            have e4 := hg.dt_le o.n_sample o.n_medium o.detection_angle j
            have e5 := hsum j
            have e6 := (hir j).2
            linarith
          linarith
    · injection h with h
      obtain ⟨R, T, hR, hT, hR0, hT0, hb⟩ := distribute_sphere_fin hnt hL hg (fun j => (hir j).1)
      refine ⟨R, T, c.i, by rw [← h]; exact hR, by rw [← h]; exact hT, hR0, hT0, hi01, hd1, hb.trans ?_⟩
      apply Finset.sum_le_sum
      intro j _
      apply div_le_div_of_nonneg_right _ hn.le
      have e5 := hsum j
      have e6 := (hir j).2
      linarith

/-- C20 (a).  A run with `run_fresnel_traj=True` for a sphere, from full weights: reflectance and transmittance accumulated
over all recursive re-runs are non-negative numbers with sum at most one — for every sequence of simulated generations,
every `max_call_depth` and `max_stuck`. -/
theorem C20_rerun_total {nt : ℕ} (hnt : 0 < nt) {o on : Optics} (ho : OpticsOK o) (hon : OpticsOK on) {sim : ℕ → Sim nt}
    (hsim : ∀ d, SimOK (sim d)) (ms : ℝ) (kz0_refl : Option (Fin nt → ℝ)) (M : ℕ) {r : RecResult nt}
    (h : calcRec .sphere on sim kz0_refl false ms o M 0 (fun _ => fin 1) = .ok r) :
    ∃ R T : ℝ, r.rt.R = fin R ∧ r.rt.T = fin T ∧ 0 ≤ R ∧ 0 ≤ T ∧ R + T ≤ 1 := by
  obtain ⟨R, T, i, hR, hT, h0, h1, -, -, hb⟩ := rec_bound hnt hon hsim ms _ o ho kz0_refl M 0 (fun _ => 1) r rfl
    (fun _ => by norm_num) h
  refine ⟨R, T, hR, hT, h0, h1, hb.trans ?_⟩
  have hn : (nt:ℝ) ≠ 0 := by exact_mod_cast hnt.ne'
  have : ∀ j : Fin nt, (i j * 1 + (1 - i j)) / (nt:ℝ) = 1 / nt := by intro j; congr 1; ring
  rw [Finset.sum_congr rfl fun j _ => this j, Finset.sum_const, Finset.card_univ, Fintype.card_fin, nsmul_eq_mul]
  field_simp
  exact le_rfl

/-- C20 (b).  A re-run (depth ≥ 1) of photons with weights `ω` adds at most their mean weight, i.e. the undecided fraction
`total_stuck` of the call that started it. -/
theorem C20_rerun_adds_at_most_undecided {nt : ℕ} (hnt : 0 < nt) {o on : Optics} (ho : OpticsOK o) (hon : OpticsOK on)
    {sim : ℕ → Sim nt} (hsim : ∀ d, SimOK (sim d)) (ms : ℝ) (kz0_refl : Option (Fin nt → ℝ)) (M d : ℕ) (hd : 0 < d)
    (ω : Fin nt → ℝ) (hω : ∀ j, 0 ≤ ω j ∧ ω j ≤ 1) {r : RecResult nt}
    (h : calcRec .sphere on sim kz0_refl false ms o M d (fun j => fin (ω j)) = .ok r) :
    ∃ R T : ℝ, r.rt.R = fin R ∧ r.rt.T = fin T ∧ 0 ≤ R ∧ 0 ≤ T ∧ R + T ≤ (∑ j, ω j) / nt := by
  obtain ⟨R, T, i, hR, hT, h0, h1, -, hi, hb⟩ := rec_bound hnt hon hsim ms _ o ho kz0_refl M d ω r rfl hω h
  refine ⟨R, T, hR, hT, h0, h1, hb.trans (le_of_eq ?_)⟩
  rw [Finset.sum_div]
  apply Finset.sum_congr rfl
  intro j _
  rw [hi hd j]; ring

/-- Non-vacuity of C19 and C20: the generations of `stuckSim` satisfy the hypotheses and the call succeeds. -/
example : OpticsOK demoOptics ∧ (∀ d, SimOK (stuckSim d)) ∧
    ∃ r, calcRec .sphere demoOptics stuckSim none false (1 / 100) demoOptics 1 0 (fun _ => fin 1) = .ok r := by
  refine ⟨⟨one_pos, one_pos, (by intro x hx; cases hx), (by intro x hx; cases hx)⟩, fun d => ⟨?_, ?_, ?_, ?_, ?_⟩, ?_⟩
  · intro e j; exact ⟨zero_le_one, le_rfl⟩
  · intro j; exact Or.inr (Or.inr ⟨rfl, rfl⟩)
  · exact ⟨fun _ => 0, rfl, fun _ => le_rfl⟩
  · exact ⟨fun _ => 0, rfl, fun _ => le_rfl⟩
  · exact ⟨fun _ => 0, rfl, fun _ => le_rfl⟩
  · obtain ⟨r, hr, -⟩ := C19_max_call_depth_ignored_refuted
    exact ⟨r, hr⟩

/-- A film of index 3/2 in air. -/
noncomputable def glassOptics : Optics :=
  { n_medium := 1, n_sample := 3/2, n_tir := 3/2, n_front := none, n_back := none, detection_angle := Real.pi / 2 }

/-- Non-vacuity of C15–C18 for a film of index 3/2 in air with absorption: two photons enter along the normal; one goes through, one is
scattered back out; their weights decrease from 9/10 to 8/10.  The call returns numbers. -/
example : ∃ rt R T, calcReflTransFilm (nev := 1) (nt := 2) glassOptics 10 0 ![![0, 0], ![6, 6], ![12, -2]] ![![1, 1], ![1, -1]]
    ![![9/10, 9/10], ![8/10, 8/10]] none none false id = .ok rt ∧ rt.R = fin R ∧ rt.T = fin T ∧ 0 ≤ R ∧ 0 ≤ T ∧ R + T ≤ 1 := by
  refine C18_film_finite_partial 10 0 _ ⟨two_pos, one_pos, by norm_num [glassOptics], ?_, ?_, ?_, ?_, ?_, ?_⟩ rfl rfl
    (by norm_num [glassOptics]) ?_ ?_ ⟨0, Or.inl ?_⟩
  · intro x h; cases h
  · intro x h; cases h
  · intro e j; fin_cases e <;> fin_cases j <;> simp
  · intro e j; fin_cases e <;> fin_cases j <;> norm_num
  · intro k h; cases h
  · intro f j; left; rfl
  · intro j; fin_cases j <;> simp [glassOptics]
  · intro j; fin_cases j <;> simp
  · intro e; fin_cases e <;> norm_num

end Verif.Props
