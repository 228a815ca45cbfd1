import Verif.Props.Simulation
import Verif.Props.Geometry3
import Verif.Lemmas.UnitScale

/-!
# C96–: relations between two runs
-/

namespace Verif.Props
open Classical Verif.Spec Verif.Root Verif.Fresnel Verif.Exits Verif.Weights XF
open Verif.Simulation Verif.Traj

variable {nt num : ℕ}

/-! ## C96 -/

/-- Smaller weights in the bookkeeping, everything else equal. -/
private structure Below (c' c : RIn nt) : Prop where
  i : c'.i = c.i
  pr : c'.pr = c.pr
  pt : c'.pt = c.pt
  r : ∀ j, c'.r j ≤ c.r j
  t : ∀ j, c'.t j ≤ c.t j
  s : ∀ j, c'.s j ≤ c.s j

private theorem Below.facts {c' c : RIn nt} (h : Below c' c) (g' : c'.Good) (g : c.Good) (hk : c.known ≠ 0) :
    0 < c'.known ∧ (∀ j, c'.Pr j ≤ c.Pr j) ∧ (∀ j, c'.Pt j ≤ c.Pt j) ∧ (∀ det j, c'.er det j ≤ c.er det j) ∧
      ∀ j, c'.et j ≤ c.et j := by
  have hPr : ∀ j, c'.Pr j ≤ c.Pr j := fun j => by
    unfold RIn.Pr; rw [h.pr]; exact mul_le_mul_of_nonneg_right (h.r j) (g.pr0 j)
  have hPt : ∀ j, c'.Pt j ≤ c.Pt j := fun j => by
    unfold RIn.Pt; rw [h.pt]; exact mul_le_mul_of_nonneg_right (h.t j) (g.pt0 j)
  have hfr : ∀ j, c'.fr j ≤ c.fr j := fun j => by
    unfold RIn.fr RIn.Pr; rw [h.pr]; nlinarith [h.r j, g.pr1 j]
  have hft : ∀ j, c'.ft j ≤ c.ft j := fun j => by
    unfold RIn.ft RIn.Pt; rw [h.pt]; nlinarith [h.t j, g.pt1 j]
  have hkn : c.known ≤ c'.known := by
    unfold RIn.known
    refine Finset.sum_le_sum fun j _ => ?_
    have e1 := hfr j
    have e2 := hft j
    have e3 := h.s j
    unfold RIn.fr at e1
    unfold RIn.ft at e2
    unfold RIn.a
    rw [h.i]
    linarith
  have hpos : 0 < c.known := lt_of_le_of_ne g.known0 (Ne.symm hk)
  have hrf : c'.rf ≤ c.rf :=
    div_le_div₀ (Finset.sum_nonneg fun j _ => g.Pr0 j) (Finset.sum_le_sum fun j _ => hPr j) hpos hkn
  have htf : c'.tf ≤ c.tf :=
    div_le_div₀ (Finset.sum_nonneg fun j _ => g.Pt0 j) (Finset.sum_le_sum fun j _ => hPt j) hpos hkn
  have m1 : ∀ j, c'.fr j * c'.rf ≤ c.fr j * c.rf := fun j => mul_le_mul (hfr j) hrf g'.rf0 (g.fr0 j)
  have m2 : ∀ j, c'.ft j * c'.tf ≤ c.ft j * c.tf := fun j => mul_le_mul (hft j) htf g'.tf0 (g.ft0 j)
  have m3 : ∀ j, c'.ft j * c'.rf ≤ c.ft j * c.rf := fun j => mul_le_mul (hft j) hrf g'.rf0 (g.ft0 j)
  have m4 : ∀ j, c'.fr j * c'.tf ≤ c.fr j * c.tf := fun j => mul_le_mul (hfr j) htf g'.tf0 (g.fr0 j)
  refine ⟨lt_of_lt_of_le hpos hkn, hPr, hPt, ?_, ?_⟩
  · intro det j
    have := h.s j
    unfold RIn.er
    split
    · exact m1 j
    · linarith [m1 j, m2 j]
  · intro j
    have := h.s j
    unfold RIn.et
    linarith [m3 j, m4 j]

/-- C96 (a).  The same trajectories with smaller weights (more absorption): neither reflectance nor transmittance can grow,
and numbers do not turn into NaN — for films with or without cover slips, roughness, goniometer, with full-hemisphere
detection. -/
theorem C96_absorption_decreases_RT {nev : ℕ} {o : Optics} (thickness z_low : ℝ) (z : Fin (nev + 2) → Fin nt → ℝ)
    {kz w w' : Fin (nev + 1) → Fin nt → ℝ} {kz0_rot kz0_refl : Option (Fin nt → ℝ)} {det : Bool}
    {filter : (Fin nt → ℕ) → Fin nt → ℕ} (hrough : kz0_rot.isSome = kz0_refl.isSome)
    (H : FilmOK o kz w kz0_rot (if det then filter else id)) (hns : 0 < o.n_sample) (hle : o.n_sample ≤ o.n_tir)
    (hdet : o.detection_angle = Real.pi / 2) (hw : ∀ e j, 0 ≤ w' e j ∧ w' e j ≤ w e j) {rt : RT nt}
    (h : calcReflTransFilm o thickness z_low z kz w kz0_rot kz0_refl det filter = .ok rt)
    {R T : ℝ} (hR : rt.R = fin R) (hT : rt.T = fin T) :
    ∃ rt' R' T', calcReflTransFilm o thickness z_low z kz w' kz0_rot kz0_refl det filter = .ok rt' ∧
      rt'.R = fin R' ∧ rt'.T = fin T' ∧ R' ≤ R ∧ T' ≤ T := by
  have H' : FilmOK o kz w' kz0_rot (if det then filter else id) :=
    ⟨H.nt_pos, H.medium, H.tir, H.front, H.back, H.kz1, fun e j => ⟨(hw e j).1, (hw e j).2.trans (H.w01 e j).2⟩, H.rot1, H.filt⟩
  rw [film_call_eq _ _ _ _ _ _ _ _ _ _ hrough] at h ⊢
  have hn : (0:ℝ) < nt := by exact_mod_cast H.nt_pos
  rcases film_cases thickness z_low z kz0_refl H det with ⟨-, rt1, h1, h2, h3⟩ | ⟨i, hi, hinc, hg, hc⟩
  · rw [h] at h1; injection h1 with h1; rw [← h1, hR] at h2; exact absurd h2 (fin_ne_nan _)
  rcases hc with ⟨-, rt1, h1, h2, h3⟩ | ⟨hk, rt1, h1, h2, h3, -⟩
  · rw [h] at h1; injection h1 with h1; rw [← h1, hR] at h2; exact absurd h2 (fin_ne_nan _)
  rcases film_cases thickness z_low z kz0_refl H' det with ⟨⟨j, hj⟩, -⟩ | ⟨i', hi', hinc', hg', hc'⟩
  · obtain ⟨t, ht, -⟩ := hinc j
    rw [hj] at ht
    exact absurd ht (nan_ne_fin _)
  have hii : i' = i := by
    funext j
    obtain ⟨t, ht, -, -, e⟩ := hinc j
    obtain ⟨t', ht', -, -, e'⟩ := hinc' j
    have : (fin t : XF) = fin t' := ht.symm.trans ht'
    rw [fin_inj] at this
    rw [e, e', this]
  subst hii
  set c := filmShadow o thickness z_low z kz w kz0_rot (if det then filter else id) i' with hcdef
  set c' := filmShadow o thickness z_low z kz w' kz0_rot (if det then filter else id) i' with hcdef'
  have hsel : ∀ (idx : Fin nt → ℕ) j, i' j * sel w' idx j ≤ i' j * sel w idx j := by
    intro idx j
    refine mul_le_mul_of_nonneg_left ?_ (hi j).1
    unfold sel
    split
    · exact (hw _ _).2
    · exact le_rfl
  have hB : Below c' c := ⟨rfl, rfl, rfl, hsel _, hsel _, hsel _⟩
  obtain ⟨k1, k2, k3, k4, k5⟩ := hB.facts hg' hg hk
  rcases hc' with ⟨hk', -⟩ | ⟨-, rt2, g1, g2, g3, -⟩
  · exact absurd hk' k1.ne'
  rw [h] at h1; injection h1 with h1
  subst h1
  have hdr : ∀ j, c.dr o.n_sample o.n_medium (Real.pi / 2) j = c.Pr j := fun j =>
    dcR_full hns hle H.medium H.front (arccos_abs_mem _).1 (arccos_abs_mem _).2
  have hdt : ∀ j, c.dt o.n_sample o.n_medium (Real.pi / 2) j = c.Pt j := fun j =>
    dcR_full hns hle H.medium H.back (arccos_abs_mem _).1 (arccos_abs_mem _).2
  have hdr' : ∀ j, c'.dr o.n_sample o.n_medium (Real.pi / 2) j = c'.Pr j := fun j =>
    dcR_full hns hle H.medium H.front (arccos_abs_mem _).1 (arccos_abs_mem _).2
  have hdt' : ∀ j, c'.dt o.n_sample o.n_medium (Real.pi / 2) j = c'.Pt j := fun j =>
    dcR_full hns hle H.medium H.back (arccos_abs_mem _).1 (arccos_abs_mem _).2
  have e1 : c.rdf o.n_sample o.n_medium (Real.pi / 2) = 1 := by
    unfold RIn.rdf; rw [Finset.sum_congr rfl fun j _ => hdr j, div_self (RIn.maxEPS_pos _).ne']
  have e2 : c.tdf o.n_sample o.n_medium (Real.pi / 2) = 1 := by
    unfold RIn.tdf; rw [Finset.sum_congr rfl fun j _ => hdt j, div_self (RIn.maxEPS_pos _).ne']
  have e3 : c'.rdf o.n_sample o.n_medium (Real.pi / 2) = 1 := by
    unfold RIn.rdf; rw [Finset.sum_congr rfl fun j _ => hdr' j, div_self (RIn.maxEPS_pos _).ne']
  have e4 : c'.tdf o.n_sample o.n_medium (Real.pi / 2) = 1 := by
    unfold RIn.tdf; rw [Finset.sum_congr rfl fun j _ => hdt' j, div_self (RIn.maxEPS_pos _).ne']
  rw [hdet] at h2 h3 g2 g3
  refine ⟨rt2, _, _, g1, g2, g3, ?_, ?_⟩
  · rw [hR, fin_inj] at h2
    rw [h2]
    apply Finset.sum_le_sum
    intro j _
    apply div_le_div_of_nonneg_right _ hn.le
    rw [hdr, hdr', e1, e3]
    linarith [k2 j, k4 det j]
  · rw [hT, fin_inj] at h3
    rw [h3]
    apply Finset.sum_le_sum
    intro j _
    apply div_le_div_of_nonneg_right _ hn.le
    rw [hdt, hdt', e2, e4]
    linarith [k3 j, k5 j]

/-- The same draws with another absorption coefficient: the same paths, with weights recomputed. -/
private theorem simulate_mu {n : ℕ} {a : Init.Args nt} {S : Sampling nt num} {t : Trajs nt} (h : simulate n a S = .ok t) :
    ∃ (p : Init.Props0 nt) (step : ℕ → Fin nt → XF), Init.initializeTraj a = .ok p ∧
      sampleStep nt S.mu_scat S.mu_scat_mie S.fine_roughness S.rand_step S.rand_mie = .ok step ∧
      ∀ m, simulate n a { S with mu_abs := m } = .ok { t with weight := absorb p.weight0 m fun i j => val (step i j) } := by
  unfold simulate at h
  rcases hp : Init.initializeTraj a with e | p
  · rw [hp] at h; cases h
  rcases hang : sampleAngles1 n S.p S.min_angle S.draw_theta S.rand_phi with e | ang
  · rw [hp, hang] at h; cases h
  rcases hs : sampleStep nt S.mu_scat S.mu_scat_mie S.fine_roughness S.rand_step S.rand_mie with e | step
  · rw [hp, hang, hs] at h; cases h
  rw [hp, hang, hs] at h
  simp only [bind, Except.bind, pure, Except.pure] at h
  injection h with h
  refine ⟨p, step, rfl, rfl, fun m => ?_⟩
  simp only [simulate, hp, hang, hs, bind, Except.bind, pure, Except.pure]
  rw [← h]

/-- C96 (b).  Two complete film simulations with the same random numbers, the second with a larger absorption coefficient:
if the first delivers numbers so does the second, and neither reflectance nor transmittance is larger. -/
theorem C96_film_run_absorption {a : Init.Args nt} {S : Sampling nt num} {d : DetArgs} (H : FilmRun a S d) (nev : ℕ)
    (hdet : d.detection_angle = Real.pi / 2)
    (hfine : d.fine_roughness = 0 ∨ ∀ p m, d.n_particle = some p → d.n_matrix = some m → d.n_sample ≤ max p m)
    {mu : ℝ} (hmu : S.mu_abs ≤ mu) {rt : RT nt} (h : runFilm nev a S d = .ok rt)
    {R T : ℝ} (hR : rt.R = fin R) (hT : rt.T = fin T) :
    ∃ rt' R' T', runFilm nev a { S with mu_abs := mu } d = .ok rt' ∧ rt'.R = fin R' ∧ rt'.T = fin T' ∧ R' ≤ R ∧ T' ≤ T := by
  obtain ⟨t, ht, h1, h2, _, _, _, _, hr, hr1, _⟩ := simulate_facts H nev
  obtain ⟨p, step, hp, hs, hm⟩ := simulate_mu ht
  obtain ⟨det, filter, hf, _, heq⟩ := gonio_eq nev d t
  obtain ⟨p', hp', hw1, -⟩ := init_facts H
  rw [hp] at hp'; injection hp' with hp'; subst hp'
  obtain ⟨s, hs', hs0⟩ := step_real H
  rw [hs] at hs'; injection hs' with hs'; subst hs'
  have ht0 : t = { t with weight := absorb p.weight0 S.mu_abs s } := by
    have := (hm S.mu_abs).symm.trans ht
    injection this with this
    exact this.symm
  have hrun : runFilm nev a S d = Simulation.calcReflTransFilm nev d { t with weight := absorb p.weight0 S.mu_abs s } := by
    rw [← ht0]; simp only [runFilm, ht, bind, Except.bind]
  have hrun' : runFilm nev a { S with mu_abs := mu } d =
      Simulation.calcReflTransFilm nev d { t with weight := absorb p.weight0 mu s } := by
    simp only [runFilm, hm mu, bind, Except.bind]; rfl
  rw [hrun, heq] at h
  rw [hrun', heq]
  have hwt : absorb p.weight0 S.mu_abs s = t.weight := congrArg Trajs.weight ht0.symm
  rw [hwt] at h
  refine C96_absorption_decreases_RT d.thickness d.z_low _ hr
    (filmOK_of H h1 (fun i j => by exact h2 i j) hr1 ?_)
    (lt_of_lt_of_le H.medium_pos H.not_denser) (nTir_ge H.fine hfine) hdet ?_ h hR hT
  · intro f j
    split
    · exact hf f j
    · exact Or.inl rfl
  · intro e j
    have hsum : 0 ≤ ∑ n ∈ Finset.range (e.val + 1), s n j := Finset.sum_nonneg fun n _ => (hs0 n j).1
    rw [← hwt]
    rw [C31_absorb_beer_lambert, C31_absorb_beer_lambert, hw1]
    simp only [one_mul]
    exact ⟨(Real.exp_pos _).le, Real.exp_le_exp.mpr (by nlinarith)⟩

/-- Non-vacuity of C96: the demonstration run (absorption 1, then 2) meets the hypotheses, and by C95 it delivers numbers. -/
example : FilmRun demoArgs (demoSampling 1) (demoDet none) ∧ (demoDet none).detection_angle = Real.pi / 2 ∧
    (demoSampling 1).mu_abs ≤ 2 ∧ ∃ rt R T, runFilm 5 demoArgs (demoSampling 1) (demoDet none) = .ok rt ∧ rt.R = fin R ∧
      rt.T = fin T := by
  refine ⟨demo_filmRun 1 zero_le_one none, rfl, by norm_num [demoSampling], ?_⟩
  obtain ⟨rt, R, T, h1, h2, h3, -⟩ := C95_film_run_absorbing (demo_filmRun 1 zero_le_one none) 5 rfl one_pos rfl rfl rfl rfl
    (by intro j θ h
        have h' : 0 ≤ θ ∧ θ ≤ 0 := h
        rw [le_antisymm h'.2 h'.1]
        simp) ⟨0, by norm_num [demoSampling], by norm_num [demoSampling]⟩
  exact ⟨rt, R, T, h1, h2, h3⟩

/-! ## C97 -/

/-- All lengths of a run multiplied by `c` (a change of the length unit): spot size, film surfaces, size and distance of the detector of a
goniometer; and all coefficients,
which are inverse lengths, divided by `c`. -/
noncomputable def scaleArgs (c : ℝ) (a : Init.Args nt) : Init.Args nt := { a with spot_size := c * a.spot_size }
/-- See `scaleArgs`. -/
noncomputable def scaleSampling (c : ℝ) (S : Sampling nt num) : Sampling nt num :=
  { S with mu_scat := S.mu_scat / c, mu_scat_mie := S.mu_scat_mie.map (· / c), mu_abs := S.mu_abs / c }
/-- See `scaleArgs`. -/
noncomputable def scaleDet (c : ℝ) (d : DetArgs) : DetArgs :=
  { d with thickness := c * d.thickness, z_low := c * d.z_low, gonio := d.gonio.map fun g => (g.1, c * g.2.1, c * g.2.2) }
/-- See `scaleArgs`. -/
noncomputable def scaleTrajs (c : ℝ) (t : Trajs nt) : Trajs nt := { t with position := fun i j => V3.smul c (t.position i j) }

private theorem zFloor_scale {c : ℝ} (hc : 0 < c) (th zl z : ℝ) : zFloor (c * th) (c * zl) (c * z) = zFloor th zl z := by
  unfold zFloor
  rw [← mul_sub, ← mul_sub, mul_div_mul_left _ _ hc.ne']

/-! ### The goniometer -/

open Verif.Geometry UnitScale

/-- a column in the other unit -/
private noncomputable def scaleX (c : ℝ) (v : XV) : XV := ⟨fin c * v.x, fin c * v.y, fin c * v.z⟩

private theorem scaleX_fin (c : ℝ) (p : V3) : scaleX c (ofV3 p) = ofV3 (V3.smul c p) := by
  simp only [scaleX, ofV3, finV, fin_mul, V3.smul]

private theorem rotate_cos_nan {p u k : XV} {α : XF} (h : XF.cos α = nan) : rotateRefract p u k α = ⟨nan, nan, nan⟩ := by
  unfold rotateRefract
  simp [h]

private theorem plane_scale {c : ℝ} (hc : 0 < c) (k p : V3) (n1 n2 : ℝ) :
    (calcRefractedDirection (ofV3 k) (ofV3 (V3.smul c p)) n1 n2).2 = scaleX c (calcRefractedDirection (ofV3 k) (ofV3 p) n1 n2).2 := by
  simp only [calcRefractedDirection, ofV3, finV, V3.smul, scaleX, XV.mk.injEq]
  refine ⟨?_, ?_, ?_⟩
  · rw [← fin_mul, ← fin_mul c p.x, neg_scale hc, div_scale_left hc, scale_mul_left hc, scale_add hc]
  · rw [← fin_mul, ← fin_mul c p.y, neg_scale hc, div_scale_left hc, scale_mul_left hc, scale_add hc]
  · rw [fin_mul, mul_zero]

private theorem dir_scale {c : ℝ} (hc : 0 < c) (k p : V3) (n1 n2 : ℝ) :
    (calcRefractedDirection (ofV3 k) (ofV3 (V3.smul c p)) n1 n2).1 = (calcRefractedDirection (ofV3 k) (ofV3 p) n1 n2).1 := by
  have hpl := plane_scale hc k p n1 n2
  have h1 : ∀ q : V3, (calcRefractedDirection (ofV3 k) (ofV3 q) n1 n2).1 =
      rotateRefract (calcRefractedDirection (ofV3 k) (ofV3 q) n1 n2).2 (normalizeCol ⟨-fin k.y, fin k.x, fin 0⟩)
        ⟨fin k.x, fin k.y, negatePositive (fin k.z)⟩
        (-(refraction1 (XF.arccos (XF.abs (negatePositive (fin k.z)))) (fin n1) (fin n2) - XF.arccos (XF.abs (negatePositive (fin k.z))))) :=
    fun q => rfl
  rw [h1, h1, hpl]
  generalize hα : -(refraction1 (XF.arccos (XF.abs (negatePositive (fin k.z)))) (fin n1) (fin n2) -
    XF.arccos (XF.abs (negatePositive (fin k.z)))) = α
  obtain ⟨z', hz'⟩ : ∃ z', negatePositive (fin k.z) = fin z' := by
    unfold negatePositive
    split
    · exact ⟨-k.z, fin_neg _⟩
    · exact ⟨k.z, rfl⟩
  rw [hz']
  rcases α with α | _ | _ | _
  · by_cases hxy : (⟨-k.y, k.x, 0⟩ : V3) = V3.zero
    · have hu : normalizeCol ⟨-fin k.y, fin k.x, fin 0⟩ = ⟨nan, nan, nan⟩ := by
        have hx : k.x = 0 := by have := congrArg V3.y hxy; simpa [V3.zero] using this
        have hy : k.y = 0 := by have := congrArg V3.x hxy; simpa [V3.zero] using this
        rw [hx, hy, fin_neg, neg_zero]
        exact normalizeCol_zero
      rw [hu]
      unfold rotateRefract
      simp
    · have hu : normalizeCol ⟨-fin k.y, fin k.x, fin 0⟩ = ofV3 (V3.smul (1 / (⟨-k.y, k.x, 0⟩ : V3).norm) ⟨-k.y, k.x, 0⟩) := by
        rw [← normalizeCol_fin hxy, fin_neg]; rfl
      have hunit : (V3.smul (1 / (⟨-k.y, k.x, 0⟩ : V3).norm) ⟨-k.y, k.x, 0⟩).normSq = 1 := by
        have hp := norm_pos' hxy
        have hsq : (⟨-k.y, k.x, 0⟩ : V3).norm * (⟨-k.y, k.x, 0⟩ : V3).norm = (⟨-k.y, k.x, 0⟩ : V3).normSq :=
          Real.mul_self_sqrt (by simp only [V3.normSq, V3.dot]; nlinarith [sq_nonneg k.x, sq_nonneg k.y])
        rw [smul_normSq, ← hsq]
        field_simp
      rw [hu]
      by_cases hz : k.z = 0
      · -- the photon moves in the plane of the film: the crossing point is infinite or not a number, in every unit
        have hinf : ∀ a : XF, a = pinf ∨ a = ninf ∨ a = nan → ∀ x y : ℝ, fin c * (a * fin x + fin y) = a * fin x + fin y := by
          rintro a (rfl | rfl | rfl) x y
          · change fin c * (infOfSign x + fin y) = infOfSign x + fin y
            unfold infOfSign
            split
            · exact mul_pinf hc
            · split
              · exact mul_ninf hc
              · rfl
          · change fin c * (infOfSign (-x) + fin y) = infOfSign (-x) + fin y
            unfold infOfSign
            split
            · exact mul_pinf hc
            · split
              · exact mul_ninf hc
              · rfl
          · rfl
        have hdiv : (-fin p.z / fin k.z : XF) = pinf ∨ (-fin p.z / fin k.z : XF) = ninf ∨ (-fin p.z / fin k.z : XF) = nan := by
          rw [hz, fin_neg]
          have e : (fin (-p.z) / fin 0 : XF) = infOfSign (-p.z) := by
            change XF.div _ _ = _
            simp only [XF.div, if_true]
          rw [e]
          unfold infOfSign
          split
          · exact Or.inl rfl
          · split
            · exact Or.inr (Or.inl rfl)
            · exact Or.inr (Or.inr rfl)
        have hfix : scaleX c (calcRefractedDirection (ofV3 k) (ofV3 p) n1 n2).2 = (calcRefractedDirection (ofV3 k) (ofV3 p) n1 n2).2 := by
          simp only [calcRefractedDirection, ofV3, finV, scaleX, hinf _ hdiv, fin_mul, mul_zero]
        rw [hfix]
      · obtain ⟨q, hq⟩ : ∃ q : V3, (calcRefractedDirection (ofV3 k) (ofV3 p) n1 n2).2 = ofV3 q := by
          refine ⟨⟨-p.z / k.z * k.x + p.x, -p.z / k.z * k.y + p.y, 0⟩, ?_⟩
          simp only [calcRefractedDirection, ofV3, finV, fin_neg, fin_div _ hz, fin_mul, fin_add]
        rw [hq, scaleX_fin]
        obtain ⟨r, hr, -, -, -, hall⟩ := C23_rotation q _ ⟨k.x, k.y, z'⟩ α hunit
        change rotateRefract _ _ (ofV3 ⟨k.x, k.y, z'⟩) _ = rotateRefract _ _ (ofV3 ⟨k.x, k.y, z'⟩) _
        rw [hall, hr]
  all_goals rw [rotate_cos_nan rfl, rotate_cos_nan rfl]

private theorem hemi_scale {c : ℝ} (hc : 0 < c) (k p : XV) (θ L D : ℝ) :
    hemispherePoint k (scaleX c p) θ (c * L) (c * D) = scaleX c (hemispherePoint k p θ L D) := by
  have hc2 : 0 < c ^ 2 := by positivity
  have hrad : fin (Real.sqrt ((c * D) ^ 2 + (c * L / 2) ^ 2) ^ 2) = fin (c ^ 2) * fin (Real.sqrt (D ^ 2 + (L / 2) ^ 2) ^ 2) := by
    rw [Real.sq_sqrt (by positivity), Real.sq_sqrt (by positivity), fin_mul, fin_inj]
    ring
  have hsq : ∀ x : XF, fin c * x * (fin c * x) = fin (c ^ 2) * (x * x) := by
    intro x
    rw [scale_mul_left hc, scale_mul_right hc, mul_mul _ _ hc hc, sq]
  have hquad : ∀ a b g : XF, quadratic a (fin c * b) (fin (c ^ 2) * g) = (fin c * (quadratic a b g).1, fin c * (quadratic a b g).2) := by
    intro a b g
    simp only [quadratic, hsq, scale_mul_right hc2, scale_sub hc2, sqrt_scale hc, neg_scale hc, scale_add hc, scale_sub hc, div_scale_left hc]
  simp only [hemispherePoint, scaleX, hsq, scale_mul_right hc, scale_add hc, scale_add hc2, hrad, scale_sub hc2, hquad]
  split <;> simp only [scale_mul_left hc, scale_add hc]

private theorem inside_scale {c : ℝ} (hc : 0 < c) (q : XV) (θ L D : ℝ) :
    insideDetector (scaleX c q) θ (c * L) (c * D) ↔ insideDetector q θ L D := by
  have e1 : fin (c * D * Real.sin θ + c * L * Real.cos θ / 2) = fin c * fin (D * Real.sin θ + L * Real.cos θ / 2) := by
    rw [fin_mul, fin_inj]; ring
  have e2 : fin (c * D * Real.sin θ - c * L * Real.cos θ / 2) = fin c * fin (D * Real.sin θ - L * Real.cos θ / 2) := by
    rw [fin_mul, fin_inj]; ring
  have e3 : fin (0 + c * L / 2) = fin c * fin (0 + L / 2) := by rw [fin_mul, fin_inj]; ring
  have e4 : fin (0 - c * L / 2) = fin c * fin (0 - L / 2) := by rw [fin_mul, fin_inj]; ring
  have e5 : (fin 0 : XF) = fin c * fin 0 := by rw [fin_mul, mul_zero]
  simp only [insideDetector, scaleX, e1, e2, e3, e4, scale_lt hc]
  rw [e5, scale_lt hc, ← e5]

private theorem detected_scale {nev : ℕ} {c : ℝ} (hc : 0 < c) (indices : Fin nt → ℕ) (px py pz : Fin (nev + 1) → Fin nt → ℝ)
    (kx ky kz : Fin nev → Fin nt → ℝ) (θ L D ns nm : ℝ) :
    calcIndicesDetected indices (fun i j => c * px i j) (fun i j => c * py i j) (fun i j => c * pz i j) kx ky kz θ (c * L) (c * D) ns nm =
      calcIndicesDetected indices px py pz kx ky kz θ L D ns nm := by
  funext j
  have hsel : ∀ a : Fin nev → Fin nt → ℝ, sel (fun e j => c * a e j) indices j = c * sel a indices j := by
    intro a
    unfold sel
    split <;> simp
  set k : V3 := ⟨sel kx indices j, sel ky indices j, sel kz indices j⟩ with hk
  set p : V3 := ⟨sel (fun e => px e.succ) indices j, sel (fun e => py e.succ) indices j, sel (fun e => pz e.succ) indices j⟩ with hp
  have hl : calcIndicesDetected indices (fun i j => c * px i j) (fun i j => c * py i j) (fun i j => c * pz i j) kx ky kz θ (c * L) (c * D) ns nm j =
      (if insideDetector (hemispherePoint (calcRefractedDirection (ofV3 k) (ofV3 (V3.smul c p)) ns nm).1
      (calcRefractedDirection (ofV3 k) (ofV3 (V3.smul c p)) ns nm).2 θ (c * L) (c * D)) θ (c * L) (c * D) then indices j else 0) := by
    simp only [calcIndicesDetected, hsel]
    rfl
  rw [hl, dir_scale hc, plane_scale hc, hemi_scale hc]
  simp only [inside_scale hc]
  rfl

private theorem tir_scale {c : ℝ} (hc : 0 < c) (col : ℕ → ℝ) (event i : ℕ) :
    selectTirTraj (fun n => c * col n) event i = c * selectTirTraj col event i := by
  have hinit : ∀ i, tirInit (fun n => c * col n) event i = c * tirInit col event i := by
    intro i
    unfold tirInit
    split
    · rfl
    · split <;> simp
  induction i with
  | zero => exact hinit 0
  | succ i ih =>
    have h0 : ∀ x : ℝ, c * x = 0 ↔ x = 0 := fun x => by simp [hc.ne']
    simp only [selectTirTraj, ih, ne_eq, h0, hinit]
    by_cases h1 : selectTirTraj col event i = 0
    · simp only [h1, not_true, if_false, h0]
      split <;> rfl
    · simp only [h1, not_false_iff, if_true, neg_eq_zero, h0]
      split
      · rfl
      · ring

/-- C97 (a).  `calc_refl_trans` for a film, with or without the goniometer, gives the same result when positions, thickness, `z_low`, size
and distance of the detector are all given in another length unit. -/
theorem C97_film_units (nev : ℕ) (d : DetArgs) (t : Trajs nt) {c : ℝ} (hc : 0 < c) :
    Simulation.calcReflTransFilm nev (scaleDet c d) (scaleTrajs c t) = Simulation.calcReflTransFilm nev d t := by
  have hX : findValidExitsFilm (nev := nev + 1) (nt := nt) (scaleDet c d).optics.n_tir (scaleDet c d).optics.n_medium
      (scaleDet c d).thickness (scaleDet c d).z_low (fun i j => ((scaleTrajs c t).position i j).z)
      (fun i j => ((scaleTrajs c t).direction i j).z) =
    findValidExitsFilm d.optics.n_tir d.optics.n_medium d.thickness d.z_low (fun i j => (t.position i j).z)
      (fun i j => (t.direction i j).z) := by
    simp only [findValidExitsFilm, scaleDet, scaleTrajs, V3.smul, zFloor_scale hc]
    rfl
  rcases hg : d.gonio with _ | ⟨θ, L, D⟩
  · have h1 : (scaleDet c d).gonio = none := by simp [scaleDet, hg]
    simp only [Simulation.calcReflTransFilm, hg, h1]
    simp only [Weights.calcReflTransFilm, filmGeometry, hX]
    rfl
  · have h1 : (scaleDet c d).gonio = some (θ, c * L, c * D) := by simp [scaleDet, hg]
    have hG : gonioGeometry nev (scaleDet c d) (scaleTrajs c t) θ (c * L) (c * D) = gonioGeometry nev d t θ L D := by
      have hX' : findValidExitsFilm (nev := nev + 1) (nt := nt) (scaleDet c d).optics.n_tir (scaleDet c d).n_medium
          (scaleDet c d).thickness (scaleDet c d).z_low (fun i j => ((scaleTrajs c t).position i j).z)
          (fun i j => ((scaleTrajs c t).direction i j).z) =
        findValidExitsFilm d.optics.n_tir d.n_medium d.thickness d.z_low (fun i j => (t.position i j).z)
          (fun i j => (t.direction i j).z) := hX
      unfold gonioGeometry
      dsimp only
      rw [hX']
      simp only [scaleTrajs, V3.smul, shiftTrajTir, tir_scale hc, detected_scale hc]
      rfl
    simp only [Simulation.calcReflTransFilm, hg, h1, hG]
    rfl

private theorem move_scale (c : ℝ) (r k : ℕ → Fin nt → V3) (s : ℕ → Fin nt → ℝ) :
    move (fun i j => V3.smul c (r i j)) (fun i j => c * s i j) k = fun i j => V3.smul c (move r s k i j) := by
  funext i j
  unfold move
  induction i with
  | zero => rfl
  | succ i ih =>
    rw [cumsum, cumsum, ih]
    show V3.add _ _ = V3.smul c (V3.add _ _)
    simp only [displacement, V3.add, V3.smul, V3.mk.injEq]
    refine ⟨?_, ?_, ?_⟩ <;> ring

private theorem cumsum_scale (c : ℝ) (s : ℕ → ℝ) (i : ℕ) : cumsum (fun n => c * s n) i = c * cumsum s i := by
  induction i with
  | zero => rfl
  | succ i ih => rw [cumsum, cumsum, ih]; ring

private theorem val_div_scale {c mu : ℝ} (hc : c ≠ 0) (hmu : mu ≠ 0) (x : ℝ) :
    val (fin x / fin (mu / c)) = c * val (fin x / fin mu) := by
  rw [fin_div _ hmu, fin_div _ (div_ne_zero hmu hc)]
  show x / (mu / c) = c * (x / mu)
  field_simp

private theorem init_scale_err (a : Init.Args nt) (hfilm : a.boundary = .film) (c : ℝ) : ∀ e, Init.initializeTraj a = .error e → Init.initializeTraj (scaleArgs c a) = .error e := by
    intro e
    unfold Init.initializeTraj Init.enter
    simp only [scaleArgs, hfilm]
    split
    · exact id
    · split
      · exact id
      · split
        · exact id
        · split
          · intro h; cases h
          · split
            · exact id
            · intro h; cases h

private theorem init_scale_ok (a : Init.Args nt) (hfilm : a.boundary = .film) (c : ℝ) : ∀ p, Init.initializeTraj a = .ok p →
    ∃ r, Init.initializeTraj (scaleArgs c a) = .ok { p with r0 := r } ∧
      ∀ i j, valV (r i j) = V3.smul c (valV (p.r0 i j)) := by
    intro p
    have hrow : ∀ i (j : Fin nt), valV (Init.firstRow (fun j => Geometry.finV (a.ux j * (c * a.spot_size)) (a.uy j * (c * a.spot_size)) 0) i j) =
        V3.smul c (valV (Init.firstRow (fun j => Geometry.finV (a.ux j * a.spot_size) (a.uy j * a.spot_size) 0) i j)) := by
      intro i j
      unfold Init.firstRow
      split
      · simp only [valV, Geometry.finV, val, V3.smul, V3.mk.injEq]
        refine ⟨by ring, by ring, by ring⟩
      · simp [valV, Geometry.finV, val, V3.smul]
    unfold Init.initializeTraj Init.enter
    simp only [scaleArgs, hfilm]
    split
    · intro h; cases h
    · split
      · intro h; cases h
      · split
        · intro h; cases h
        · split
          · intro h; injection h with h; subst h
            exact ⟨_, rfl, hrow⟩
          · split
            · intro h; cases h
            · intro h; injection h with h; subst h
              exact ⟨_, rfl, hrow⟩

private theorem step_scale_err (S : Sampling nt num) (c : ℝ) : ∀ e, sampleStep nt S.mu_scat S.mu_scat_mie S.fine_roughness S.rand_step S.rand_mie = .error e →
      sampleStep nt (S.mu_scat / c) (S.mu_scat_mie.map (· / c)) S.fine_roughness S.rand_step S.rand_mie = .error e := by
    intro e
    unfold sampleStep
    split
    · exact id
    · cases S.mu_scat_mie <;> intro h <;> cases h

private theorem step_scale_ok (S : Sampling nt num) {c : ℝ} (hc : 0 < c) (hmu : S.mu_scat ≠ 0) (hmie : ∀ m ∈ S.mu_scat_mie, m ≠ 0) : ∀ st, sampleStep nt S.mu_scat S.mu_scat_mie S.fine_roughness S.rand_step S.rand_mie = .ok st →
      ∃ st', sampleStep nt (S.mu_scat / c) (S.mu_scat_mie.map (· / c)) S.fine_roughness S.rand_step S.rand_mie = .ok st' ∧
        ∀ i j, val (st' i j) = c * val (st i j) := by
    intro st
    unfold sampleStep
    split
    · intro h; cases h
    · cases hm : S.mu_scat_mie with
      | none =>
        intro h; injection h with h; subst h
        exact ⟨_, rfl, fun i j => val_div_scale hc.ne' hmu _⟩
      | some m =>
        intro h; injection h with h; subst h
        refine ⟨_, rfl, fun i j => ?_⟩
        dsimp only
        split
        · exact val_div_scale hc.ne' (hmie m hm) _
        · exact val_div_scale hc.ne' hmu _

/-- C97 (b).  A complete film simulation, with or without the goniometer, depends on lengths only through dimensionless ratios: with the same random numbers,
multiplying all lengths by `c` and dividing the coefficients by `c` reproduces the same result. -/
theorem C97_film_run_units (nev : ℕ) (a : Init.Args nt) (S : Sampling nt num) (d : DetArgs) (hfilm : a.boundary = .film)
    (hmu : S.mu_scat ≠ 0) (hmie : ∀ m ∈ S.mu_scat_mie, m ≠ 0) {c : ℝ} (hc : 0 < c) :
    runFilm nev (scaleArgs c a) (scaleSampling c S) (scaleDet c d) = runFilm nev a S d := by
  have hinit := init_scale_err a hfilm c
  have hinit' := init_scale_ok a hfilm c
  have hstep := step_scale_err S c
  have hstep' := step_scale_ok S hc hmu hmie
  rcases hp : Init.initializeTraj a with e | p
  · simp only [runFilm, simulate, hp, hinit e hp, bind, Except.bind]
  obtain ⟨r, hp', hr⟩ := hinit' p hp
  rcases hang : sampleAngles1 (nev + 1) S.p S.min_angle S.draw_theta S.rand_phi with e | ang
  · simp only [runFilm, simulate, hp, hp', hang, scaleSampling, bind, Except.bind]
  rcases hs : sampleStep nt S.mu_scat S.mu_scat_mie S.fine_roughness S.rand_step S.rand_mie with e | st
  · simp only [runFilm, simulate, hp, hp', hang, hs, hstep e hs, scaleSampling, bind, Except.bind]
  obtain ⟨st', hs', hst⟩ := hstep' st hs
  have hsim : simulate (nev + 1) a S = .ok
      { position := move (fun i j => valV (p.r0 i j)) (fun i j => val (st i j)) (scatter (nev + 1) (fun i j => valV (p.k0 i j)) ang.sintheta ang.costheta ang.sinphi ang.cosphi)
        direction := scatter (nev + 1) (fun i j => valV (p.k0 i j)) ang.sintheta ang.costheta ang.sinphi ang.cosphi
        weight := absorb p.weight0 S.mu_abs (fun i j => val (st i j))
        kz0_rot := p.kz0_rot.map fun f j => val (f j)
        kz0_refl := p.kz0_refl.map fun f j => val (f j) } := by
    simp only [simulate, hp, hang, hs, bind, Except.bind, pure, Except.pure]
  have hsim' : simulate (nev + 1) (scaleArgs c a) (scaleSampling c S) = .ok
      { position := move (fun i j => valV (r i j)) (fun i j => val (st' i j)) (scatter (nev + 1) (fun i j => valV (p.k0 i j)) ang.sintheta ang.costheta ang.sinphi ang.cosphi)
        direction := scatter (nev + 1) (fun i j => valV (p.k0 i j)) ang.sintheta ang.costheta ang.sinphi ang.cosphi
        weight := absorb p.weight0 (S.mu_abs / c) (fun i j => val (st' i j))
        kz0_rot := p.kz0_rot.map fun f j => val (f j)
        kz0_refl := p.kz0_refl.map fun f j => val (f j) } := by
    simp only [simulate, hp', hang, hs', scaleSampling, bind, Except.bind, pure, Except.pure]
  have hw : absorb p.weight0 (S.mu_abs / c) (fun i j => val (st' i j)) = absorb p.weight0 S.mu_abs (fun i j => val (st i j)) := by
    funext i j
    unfold absorb
    simp only [hst]
    rw [cumsum_scale, ← mul_assoc, div_mul_cancel₀ _ hc.ne']
  have hmv : move (fun i j => valV (r i j)) (fun i j => val (st' i j)) (scatter (nev + 1) (fun i j => valV (p.k0 i j)) ang.sintheta ang.costheta ang.sinphi ang.cosphi) =
      fun i j => V3.smul c (move (fun i j => valV (p.r0 i j)) (fun i j => val (st i j)) (scatter (nev + 1) (fun i j => valV (p.k0 i j)) ang.sintheta ang.costheta ang.sinphi ang.cosphi) i j) := by
    rw [← move_scale]
    simp only [hr, hst]
  rw [hw, hmv] at hsim'
  have hbind : ∀ (d' : DetArgs) (t : Trajs nt), (do let t ← Except.ok t; Simulation.calcReflTransFilm nev d' t :
      Except PyErr (RT nt)) = Simulation.calcReflTransFilm nev d' t := fun _ _ => rfl
  unfold runFilm
  rw [hsim, hsim', hbind, hbind]
  exact C97_film_units nev d (Trajs.mk _ _ _ _ _) hc

/-- Non-vacuity of C97: the demonstration runs, without and with a goniometer, in nanometres instead of micrometres. -/
example (g : Option (ℝ × ℝ × ℝ)) : runFilm 5 (scaleArgs 1000 demoArgs) (scaleSampling 1000 (demoSampling 1)) (scaleDet 1000 (demoDet g)) =
    runFilm 5 demoArgs (demoSampling 1) (demoDet g) :=
  C97_film_run_units 5 _ _ _ rfl one_ne_zero (fun m hm => absurd hm (by simp [demoSampling])) (by norm_num)

end Verif.Props
