import Verif.Lemmas.Fresnel
import Mathlib.Analysis.SpecificLimits.Basic

/-!
# Properties C05–C08: Fresnel coefficients and the two-interface pass fraction
-/

namespace Verif.Props
open Classical Verif.Spec Verif.Root Verif.Fresnel XF

/-! ## C05 -/

/-- C05.  For positive indices and angles in [0, π/2] the calls succeed, all four arrays hold fractions, and reflection
plus transmission is 1 for each polarisation. -/
theorem C05_fresnel_fractions {n : ℕ} (θ : Fin n → ℝ) {n1 n2 : ℝ} (h1 : 0 < n1) (_h2 : 0 < n2)
    (hθ : ∀ i, 0 ≤ θ i ∧ θ i ≤ Real.pi / 2) :
    ∃ rp rs tp ts : Fin n → ℝ,
      fresnelReflection n1 n2 (fun i => fin (θ i)) = .ok (fun i => fin (rp i), fun i => fin (rs i)) ∧
      fresnelTransmission n1 n2 (fun i => fin (θ i)) = .ok (fun i => fin (tp i), fun i => fin (ts i)) ∧
      ∀ i, IsFraction (rp i) ∧ IsFraction (rs i) ∧ IsFraction (tp i) ∧ IsFraction (ts i) ∧
        rp i + tp i = 1 ∧ rs i + ts i = 1 := by
  have hnerr : ¬ ∃ i, (fin (Real.pi / 2) : XF) < fin (θ i) := by
    rintro ⟨i, hi⟩
    rw [fin_lt] at hi
    linarith [(hθ i).2]
  refine ⟨fun i => rPar n1 n2 (θ i), fun i => rPerp n1 n2 (θ i), fun i => 1 - rPar n1 n2 (θ i),
    fun i => 1 - rPerp n1 n2 (θ i), ?_, ?_, ?_⟩
  · simp only [fresnelReflection, if_neg hnerr, onFin]
  · simp only [fresnelTransmission, fresnelReflection, if_neg hnerr, onFin, bind, Except.bind, pure, Except.pure,
      fin_sub]
  · intro i
    have a := rPar_frac (n2 := n2) h1 (hθ i).1 (hθ i).2
    have b := rPerp_frac (n2 := n2) h1 (hθ i).1 (hθ i).2
    refine ⟨a, b, ⟨?_, ?_⟩, ⟨?_, ?_⟩, ?_, ?_⟩ <;> (simp only; linarith)

/-- Textbook Fresnel reflectances (intensity) for a ray going from index `n1` at angle `θ1` to index `n2` at `θ2`. -/
noncomputable def textbookRp (n1 n2 θ1 θ2 : ℝ) : ℝ :=
  ((n1 * Real.cos θ2 - n2 * Real.cos θ1) / (n1 * Real.cos θ2 + n2 * Real.cos θ1)) ^ 2
/-- See `textbookRp`. -/
noncomputable def textbookRs (n1 n2 θ1 θ2 : ℝ) : ℝ :=
  ((n1 * Real.cos θ1 - n2 * Real.cos θ2) / (n1 * Real.cos θ1 + n2 * Real.cos θ2)) ^ 2

/-- C05 (values).  Below the critical angle the first returned coefficient is the textbook parallel one and the second the
textbook perpendicular one, with `θ2` the angle given by Snell's law. -/
theorem C05_fresnel_textbook {n1 n2 θ1 θ2 : ℝ} (h1 : 0 < n1) (h2 : 0 < n2) (h0 : 0 ≤ θ1)
    (hθ : θ1 < Real.pi / 2) (hs : Snell n1 n2 θ1 θ2) (ht : IsRefractionAngle θ2) (hlt : n1 * Real.sin θ1 < n2) :
    fresnelReflection n1 n2 (fun _ : Fin 1 => fin θ1) =
      .ok (fun _ => fin (textbookRp n1 n2 θ1 θ2), fun _ => fin (textbookRs n1 n2 θ1 θ2)) := by
  have hnerr : ¬ ∃ _ : Fin 1, (fin (Real.pi / 2) : XF) < fin θ1 := by
    rintro ⟨_, hi⟩
    rw [fin_lt] at hi
    linarith
  have hm : ¬ tirMask n1 n2 θ1 := by
    rw [tirMask_iff h1 h2 h0 hθ.le]; rintro ⟨_, h'⟩; linarith
  have hc := cos_pos_of h0 hθ
  have hc2 : 0 ≤ Real.cos θ2 := Real.cos_nonneg_of_mem_Icc ⟨ht.1, ht.2⟩
  simp only [fresnelReflection, if_neg hnerr, onFin]
  rw [rPar_eq h2 hs ht hm, rPerp_eq h2 hs ht hm, ratioSq_of_pos (by positivity), ratioSq_of_pos (by positivity)]
  rfl

/-- Non-vacuity of C05: from index 1 to 2 at 30°. -/
example : (0 ≤ Real.pi / 6 ∧ Real.pi / 6 ≤ Real.pi / 2) ∧ Snell 1 2 (Real.pi / 6) (Real.arcsin (1 / 4)) ∧
    (1 : ℝ) * Real.sin (Real.pi / 6) < 2 := by
  have := Real.pi_pos
  refine ⟨⟨by linarith, by linarith⟩, ?_, ?_⟩
  · unfold Snell; rw [Real.sin_arcsin (by norm_num) (by norm_num), Real.sin_pi_div_six]; norm_num
  · rw [Real.sin_pi_div_six]; norm_num

/-! ## C06 -/

/-- C06 (a).  The range check: ValueError exactly when some angle exceeds π/2. -/
theorem C06_fresnel_range_check {n : ℕ} (θ : Fin n → ℝ) (n1 n2 : ℝ) :
    fresnelReflection n1 n2 (fun i => fin (θ i)) = .error .valueError ↔ ∃ i, Real.pi / 2 < θ i := by
  unfold fresnelReflection
  simp only [fin_lt]
  split
  · next h => exact ⟨fun _ => h, fun _ => rfl⟩
  · next h => exact ⟨fun h' => (nomatch h'), fun h' => absurd h' h⟩

/-- C06 (b).  Beyond the critical angle both polarisations are fully reflected; strictly before it (and before grazing
incidence) both are strictly below 1.  Entry `i` of an array whose entries are all in [0, π/2]. -/
theorem C06_fresnel_tir {n : ℕ} (θ : Fin n → ℝ) {n1 n2 : ℝ} (h1 : 0 < n1) (h2 : 0 < n2)
    (hθ : ∀ i, 0 ≤ θ i ∧ θ i ≤ Real.pi / 2) :
    ∃ rp rs : Fin n → ℝ,
      fresnelReflection n1 n2 (fun i => fin (θ i)) = .ok (fun i => fin (rp i), fun i => fin (rs i)) ∧
      ∀ i, (n2 < n1 → n2 ≤ n1 * Real.sin (θ i) → rp i = 1 ∧ rs i = 1) ∧
        (n1 * Real.sin (θ i) < n2 → θ i < Real.pi / 2 → rp i < 1 ∧ rs i < 1) := by
  have hnerr : ¬ ∃ i, (fin (Real.pi / 2) : XF) < fin (θ i) := by
    rintro ⟨i, hi⟩
    rw [fin_lt] at hi
    linarith [(hθ i).2]
  refine ⟨fun i => rPar n1 n2 (θ i), fun i => rPerp n1 n2 (θ i), ?_, ?_⟩
  · simp only [fresnelReflection, if_neg hnerr, onFin]
  · intro i
    refine ⟨fun ha hb => ?_, fun ha hb => rMean_lt_one_of h1 h2 (hθ i).1 hb ha⟩
    have hm : tirMask n1 n2 (θ i) := (tirMask_iff h1 h2 (hθ i).1 (hθ i).2).2 ⟨ha, hb⟩
    simp only [rPar, rPerp, if_pos hm, and_self]

/-- Non-vacuity of C06: 60° from index 2 to 1 is beyond the critical angle (30°), 0° is not. -/
example : (1 : ℝ) < 2 ∧ (1 : ℝ) ≤ 2 * Real.sin (Real.pi / 2) ∧ (2 : ℝ) * Real.sin 0 < 1 ∧ (0:ℝ) < Real.pi / 2 := by
  have := Real.pi_pos
  refine ⟨by norm_num, ?_, ?_, by linarith⟩
  · rw [Real.sin_pi_div_two]; norm_num
  · rw [Real.sin_zero]; norm_num

/-! ## C07 (one angle; `rPar`, `rPerp` are the two arrays' entries: `fresnelReflection_eq`) -/

/-- The entries of the arrays returned by `fresnelReflection` are `rPar`, `rPerp`; used to state C07 per angle. -/
theorem fresnelReflection_eq {n : ℕ} (θ : Fin n → ℝ) {n1 n2 : ℝ} (hθ : ∀ i, θ i ≤ Real.pi / 2) :
    fresnelReflection n1 n2 (fun i => fin (θ i)) =
      .ok (fun i => fin (rPar n1 n2 (θ i)), fun i => fin (rPerp n1 n2 (θ i))) := by
  have hnerr : ¬ ∃ i, (fin (Real.pi / 2) : XF) < fin (θ i) := by
    rintro ⟨i, hi⟩
    rw [fin_lt] at hi
    linarith [hθ i]
  simp only [fresnelReflection, if_neg hnerr, onFin]

/-- C07 (a).  Index matching: nothing is reflected below grazing incidence. -/
theorem C07_fresnel_index_match {n θ : ℝ} (hn : 0 < n) (h0 : 0 ≤ θ) (hθ : θ < Real.pi / 2) :
    rPar n n θ = 0 ∧ rPerp n n θ = 0 := rMean_same hn h0 hθ

/-- C07 (b).  Normal incidence. -/
theorem C07_fresnel_normal {n1 n2 : ℝ} (h1 : 0 < n1) (h2 : 0 < n2) :
    rPar n1 n2 0 = ((n1 - n2) / (n1 + n2)) ^ 2 ∧ rPerp n1 n2 0 = ((n1 - n2) / (n1 + n2)) ^ 2 := by
  have hpi := Real.pi_pos
  have hm : ¬ tirMask n1 n2 0 := by
    rw [tirMask_iff h1 h2 le_rfl (by linarith)]; rintro ⟨_, h'⟩; rw [Real.sin_zero] at h'; linarith
  have hr : IsRefractionAngle 0 := ⟨by linarith, by linarith⟩
  have hs : n1 * Real.sin 0 = n2 * Real.sin 0 := by rw [Real.sin_zero]; ring
  rw [rPar_eq h2 hs hr hm, rPerp_eq h2 hs hr hm, Real.cos_zero, mul_one, mul_one, ratioSq_of_pos (by linarith)]
  exact ⟨rfl, rfl⟩

/-- C07 (c).  Brewster: for different indices, below grazing incidence, the parallel polarisation is not reflected exactly
at the angle with tangent n2/n1. -/
theorem C07_fresnel_brewster {n1 n2 θ : ℝ} (h1 : 0 < n1) (h2 : 0 < n2) (hne : n1 ≠ n2) (h0 : 0 ≤ θ)
    (hθ : θ < Real.pi / 2) : rPar n1 n2 θ = 0 ↔ Real.tan θ = n2 / n1 := by
  have hc := cos_pos_of h0 hθ
  have hs := sin_nonneg_of h0 hθ.le
  have hsc := Real.sin_sq_add_cos_sq θ
  rw [Real.tan_eq_sin_div_cos, div_eq_div_iff hc.ne' h1.ne']
  unfold rPar
  by_cases hm : tirMask n1 n2 θ
  · rw [if_pos hm]
    rw [tirMask_iff h1 h2 h0 hθ.le] at hm
    constructor
    · intro h; norm_num at h
    · intro h
      exfalso
      -- n1 s = n2 c and n2 ≤ n1 s
      have h3 : n2 ≤ n2 * Real.cos θ := by linarith [hm.2]
      have h4 : Real.cos θ ≤ 1 := Real.cos_le_one θ
      have h5 : Real.cos θ = 1 := by nlinarith
      have h6 : Real.sin θ = 0 := by nlinarith
      rw [h6] at hm
      linarith [hm.2]
  · rw [if_neg hm]
    rw [tirMask_iff h1 h2 h0 hθ.le] at hm
    have hlt : n1 * Real.sin θ < n2 := by
      by_contra hh
      push Not at hh
      apply hm
      refine ⟨?_, hh⟩
      have := sin_lt_one_of h0 hθ
      nlinarith
    have hrad : 0 ≤ n2 ^ 2 - (n1 * Real.sin θ) ^ 2 := by nlinarith [mul_nonneg h1.le hs]
    have hr : root n1 n2 θ ^ 2 = n2 ^ 2 - (n1 * Real.sin θ) ^ 2 := by
      unfold root; rw [abs_of_nonneg hrad, Real.sq_sqrt hrad]
    have hr0 := root_nonneg n1 n2 θ
    rw [ratioSq_eq_zero (by positivity)]
    constructor
    · intro h
      have hsq : n1 ^ 2 * (n2 ^ 2 - (n1 * Real.sin θ) ^ 2) = n2 ^ 4 * Real.cos θ ^ 2 := by
        rw [← hr, ← mul_pow, h]; ring
      -- (n1² - n2²)(n1² s² - n2² c²) = 0
      have h3 : (n1 ^ 2 - n2 ^ 2) * ((n1 * Real.sin θ) ^ 2 - (n2 * Real.cos θ) ^ 2) = 0 := by
        have : Real.cos θ ^ 2 = 1 - Real.sin θ ^ 2 := by linarith
        rw [mul_pow n2, this]
        rw [this] at hsq
        linear_combination -hsq
      have h4 : n1 ^ 2 - n2 ^ 2 ≠ 0 := by
        intro h5
        apply hne
        have : (n1 - n2) * (n1 + n2) = 0 := by linear_combination h5
        rcases mul_eq_zero.mp this with h6 | h6 <;> linarith
      have h5 := (mul_eq_zero.mp h3).resolve_left h4
      have h6 : (n1 * Real.sin θ - n2 * Real.cos θ) * (n1 * Real.sin θ + n2 * Real.cos θ) = 0 := by
        linear_combination h5
      rcases mul_eq_zero.mp h6 with h7 | h7
      · linarith
      · have := mul_nonneg h1.le hs
        have := mul_pos h2 hc
        linarith
    · intro h
      have hroot : root n1 n2 θ = n2 * Real.sin θ := by
        have : n2 ^ 2 - (n1 * Real.sin θ) ^ 2 = (n2 * Real.sin θ) ^ 2 := by
          have : n1 * Real.sin θ = n2 * Real.cos θ := by linarith
          rw [this]
          linear_combination (-n2 ^ 2) * hsc
        unfold root
        rw [this, abs_of_nonneg (by positivity), Real.sqrt_sq (by positivity)]
      rw [hroot]
      linear_combination n2 * h

/-- C07 (d).  At exactly grazing incidence everything is reflected. -/
theorem C07_fresnel_grazing (n1 n2 : ℝ) :
    rPar n1 n2 (Real.pi / 2) = 1 ∧ rPerp n1 n2 (Real.pi / 2) = 1 := grazing_eq_one

/-- C07 (e).  Reciprocity: what is reflected from side 1 at `θ1` is reflected from side 2 at the refracted angle. -/
theorem C07_fresnel_reciprocity {n1 n2 θ1 θ2 : ℝ} (h1 : 0 < n1) (h2 : 0 < n2) (h0 : 0 ≤ θ1)
    (hθ : θ1 < Real.pi / 2) (hlt : n1 * Real.sin θ1 < n2)
    (href : refraction1 (fin θ1) (fin n1) (fin n2) = fin θ2) :
    rPar n1 n2 θ1 = rPar n2 n1 θ2 ∧ rPerp n1 n2 θ1 = rPerp n2 n1 θ2 := by
  rw [refraction1_fin h2.ne'] at href
  have hs := sin_nonneg_of h0 hθ.le
  have hlt' : n1 / n2 * Real.sin θ1 < 1 := by rw [div_mul_eq_mul_div, div_lt_one h2]; exact hlt
  have hge : 0 ≤ n1 / n2 * Real.sin θ1 := by positivity
  rw [if_neg (by rw [abs_of_nonneg hge]; linarith), fin_inj] at href
  have hsn : n1 * Real.sin θ1 = n2 * Real.sin θ2 := by
    rw [← href, Real.sin_arcsin (by linarith) hlt'.le]; field_simp
  exact r_recip h1 h2 h0 hθ hsn ⟨href ▸ Real.neg_pi_div_two_le_arcsin _, href ▸ Real.arcsin_le_pi_div_two _⟩ hlt

/-- Non-vacuity of C07: from index 1 to √3 the Brewster angle is 60°. -/
example : rPar 1 (Real.sqrt 3) (Real.pi / 3) = 0 := by
  have hp := Real.pi_pos
  have h3 : (1:ℝ) < Real.sqrt 3 := by
    rw [show (1:ℝ) = Real.sqrt 1 by simp]; exact Real.sqrt_lt_sqrt (by norm_num) (by norm_num)
  rw [C07_fresnel_brewster one_pos (by linarith) (ne_of_lt h3) (by linarith) (by linarith)]
  rw [Real.tan_pi_div_three]; simp

/-! ## C08 -/

/-- the exact (unregularised) passage through two interfaces: the sum over the number `k` of internal round trips -/
noncomputable def seriesPass (t1 t2 r1 r2 : ℝ) : ℝ := ∑' k : ℕ, t1 * t2 * (r1 * r2) ^ k

/-- C08 (a).  `fresnel_pass_frac` succeeds on angles in [0, π/2] and returns fractions. -/
theorem C08_pass_frac_fraction {n : ℕ} (θ : Fin n → ℝ) {nb na : ℝ} (ni? : Option ℝ) (hb : 0 < nb)
    (_ha : 0 < na) (hi : ∀ x, ni? = some x → 0 < x) (hθ : ∀ i, 0 ≤ θ i ∧ θ i ≤ Real.pi / 2) :
    ∃ p : Fin n → ℝ, fresnelPassFrac (fun i => fin (θ i)) nb ni? na = .ok (fun i => fin (p i)) ∧
      ∀ i, IsFraction (p i) := by
  refine ⟨_, fresnelPassFrac_fin θ ni? hb hi hθ, ?_⟩
  intro i
  have hni : 0 < ni?.getD nb := by
    cases ni? with
    | none => simpa using hb
    | some x => simpa using hi x rfl
  have ht := thetaInside_mem hb hni (hθ i).1 (hθ i).2
  have r1 := rMean_frac (n2 := ni?.getD nb) hb (hθ i).1 (hθ i).2
  have r2 := rMean_frac (n2 := na) hni ht.1 ht.2
  have r1' := rMean_frac (n2 := nb) hni ht.1 ht.2
  have he := EPS_pos
  rw [passFrac_eq]
  set ti := thetaInside nb (ni?.getD nb) (θ i)
  have hden : 0 < 1 - rMean (ni?.getD nb) na ti * rMean (ni?.getD nb) nb ti + EPS := by nlinarith
  constructor
  · apply div_nonneg _ hden.le
    exact mul_nonneg (by linarith) (by linarith)
  · rw [div_le_one hden]
    by_cases hop : ni?.getD nb ≤ nb * Real.sin (θ i) ∨ θ i = Real.pi / 2
    · rw [rMean_eq_one_of hb hni (hθ i).1 (hθ i).2 hop]
      nlinarith
    · push Not at hop
      have hlt : θ i < Real.pi / 2 := lt_of_le_of_ne (hθ i).2 hop.2
      have hsn := thetaInside_snell hb hni (hθ i).1 (hθ i).2 hop.1.le
      have hrec := r_recip hb hni (hθ i).1 hlt hsn ⟨by linarith [Real.pi_pos, ht.1], ht.2⟩ hop.1
      have hrm : rMean nb (ni?.getD nb) (θ i) = rMean (ni?.getD nb) nb ti := by
        unfold rMean; rw [hrec.1, hrec.2]
      rw [hrm]
      nlinarith

/-- C08 (b).  The pass fraction is zero exactly when the ray is totally reflected at one of the two interfaces (in terms of
the invariant `n sin θ`) or runs along the first surface. -/
theorem C08_pass_frac_zero_iff {nb na θ : ℝ} (ni? : Option ℝ) (hb : 0 < nb) (ha : 0 < na)
    (hi : ∀ x, ni? = some x → 0 < x) (h0 : 0 ≤ θ) (hθ : θ ≤ Real.pi / 2) :
    passFrac nb ni? na θ = 0 ↔
      (ni?.getD nb ≤ nb * Real.sin θ ∨ na ≤ nb * Real.sin θ ∨ θ = Real.pi / 2) := by
  have hni : 0 < ni?.getD nb := by
    cases ni? with
    | none => simpa using hb
    | some x => simpa using hi x rfl
  have ht := thetaInside_mem hb hni h0 hθ
  have r1 := rMean_frac (n2 := ni?.getD nb) hb h0 hθ
  have r2 := rMean_frac (n2 := na) hni ht.1 ht.2
  have r1' := rMean_frac (n2 := nb) hni ht.1 ht.2
  have he := EPS_pos
  rw [passFrac_eq]
  set ni := ni?.getD nb
  set ti := thetaInside nb ni θ with hti
  have hden : 0 < 1 - rMean ni na ti * rMean ni nb ti + EPS := by nlinarith
  rw [div_eq_zero_iff, or_iff_left hden.ne', mul_eq_zero]
  by_cases hop : ni ≤ nb * Real.sin θ ∨ θ = Real.pi / 2
  · rw [rMean_eq_one_of hb hni h0 hθ hop]
    simp only [sub_self, true_or, true_iff]
    tauto
  · push Not at hop
    have hlt : θ < Real.pi / 2 := lt_of_le_of_ne hθ hop.2
    have hsn := thetaInside_snell hb hni h0 hθ hop.1.le
    have hm1 := rMean_lt_one_of hb hni h0 hlt hop.1
    have hm1' : 1 - rMean nb ni θ ≠ 0 := by unfold rMean; linarith [hm1.1, hm1.2]
    rw [or_iff_right hm1']
    have hti2 : ti < Real.pi / 2 := by
      refine lt_of_le_of_ne ht.2 ?_
      intro h
      rw [← hti, h, Real.sin_pi_div_two, mul_one] at hsn
      linarith [hop.1]
    constructor
    · intro h
      right; left
      by_contra hh
      push Not at hh
      have := rMean_lt_one_of hni ha ht.1 hti2 (by rw [← hsn]; exact hh)
      unfold rMean at h
      linarith [this.1, this.2]
    · rintro (h | h | h)
      · exact absurd h (not_le.mpr hop.1)
      · rw [rMean_eq_one_of hni ha ht.1 ht.2 (Or.inl (by rw [← hsn]; exact h)), sub_self]
      · exact absurd h hop.2

/-- C08 (c).  A single interface (`n_inside=None`), below grazing: the mean transmittance divided by `1 + EPS`. -/
theorem C08_pass_frac_single {nb na θ : ℝ} (hb : 0 < nb) (h0 : 0 ≤ θ) (hθ : θ < Real.pi / 2) :
    passFrac nb none na θ = ((1 - rPar nb na θ) + (1 - rPerp nb na θ)) / 2 / (1 + EPS) := by
  rw [passFrac_eq]
  simp only [Option.getD_none]
  rw [thetaInside_same hb h0 hθ.le]
  have h := rMean_same hb h0 hθ
  unfold rMean
  rw [h.1, h.2]
  norm_num
  ring

/-- C08 (d).  The result is below the exact infinite series of internal reflections and differs from it by at most a
fraction `EPS / (1 - R1 R2)` of it, whenever that series converges. -/
theorem C08_pass_frac_series {nb na θ : ℝ} (ni? : Option ℝ) (hb : 0 < nb)
    (hi : ∀ x, ni? = some x → 0 < x) (h0 : 0 ≤ θ) (hθ : θ ≤ Real.pi / 2) :
    let ni := ni?.getD nb
    let ti := thetaInside nb ni θ
    let t1 := 1 - rMean nb ni θ
    let t2 := 1 - rMean ni na ti
    let r2 := rMean ni na ti
    let r1 := rMean ni nb ti
    r1 * r2 < 1 →
    passFrac nb ni? na θ ≤ seriesPass t1 t2 r1 r2 ∧
    seriesPass t1 t2 r1 r2 - passFrac nb ni? na θ ≤ EPS / (1 - r1 * r2) * seriesPass t1 t2 r1 r2 := by
  intro ni ti t1 t2 r2 r1 hlt
  have hni : 0 < ni := by
    show 0 < ni?.getD nb
    cases ni? with
    | none => simpa using hb
    | some x => simpa using hi x rfl
  have ht := thetaInside_mem hb hni h0 hθ
  have e1 := rMean_frac (n2 := ni) hb h0 hθ
  have e2 := rMean_frac (n2 := na) hni ht.1 ht.2
  have e3 := rMean_frac (n2 := nb) hni ht.1 ht.2
  have he := EPS_pos
  have hprod : 0 ≤ r1 * r2 := mul_nonneg e3.1 e2.1
  have hser : seriesPass t1 t2 r1 r2 = t1 * t2 / (1 - r1 * r2) := by
    unfold seriesPass
    rw [tsum_mul_left, tsum_geometric_of_lt_one hprod hlt]
    rfl
  have hT : 0 ≤ t1 * t2 := mul_nonneg (by show 0 ≤ 1 - _; linarith [e1.2]) (by show 0 ≤ 1 - _; linarith [e2.2])
  have hd : 0 < 1 - r1 * r2 := by linarith
  have hp : passFrac nb ni? na θ = t1 * t2 / (1 - r1 * r2 + EPS) := by
    rw [passFrac_eq]
    show _ / (1 - r2 * r1 + EPS) = _
    rw [mul_comm r2 r1]
  rw [hser, hp]
  set T := t1 * t2
  set d := 1 - r1 * r2
  constructor
  · exact div_le_div_of_nonneg_left hT hd (by linarith)
  · have : T / d - T / (d + EPS) = EPS / (d + EPS) * (T / d) := by
      field_simp
      ring
    rw [this]
    apply mul_le_mul_of_nonneg_right _ (div_nonneg hT hd.le)
    exact div_le_div_of_nonneg_left he.le hd (by linarith)

/-- C08 (e).  Reversibility of a pane: traversing the same three media in the opposite order along the same ray passes the
same fraction. -/
theorem C08_pass_frac_reversible {nb ni na θ θa : ℝ} (hb : 0 < nb) (hni : 0 < ni) (ha : 0 < na)
    (h0 : 0 ≤ θ) (hθ : θ < Real.pi / 2) (hra : IsRefractionAngle θa) (hs : Snell nb na θ θa)
    (hlt1 : nb * Real.sin θ < ni) (hlt2 : nb * Real.sin θ < na) :
    passFrac nb (some ni) na θ = passFrac na (some ni) nb θa := by
  have ht := thetaInside_mem hb hni h0 hθ.le
  have hsn := thetaInside_snell hb hni h0 hθ.le hlt1.le
  have ha0 := angle_nonneg_of_snell hb ha h0 hθ.le hs hra
  have hti : thetaInside na ni θa = thetaInside nb ni θ := by
    unfold thetaInside
    have : na / ni * Real.sin θa = nb / ni * Real.sin θ := by
      unfold Snell at hs
      field_simp; linarith
    rw [this]
  have hti2 : thetaInside nb ni θ < Real.pi / 2 := by
    refine lt_of_le_of_ne ht.2 ?_
    intro h
    rw [h, Real.sin_pi_div_two, mul_one] at hsn
    linarith
  have hra' : IsRefractionAngle (thetaInside nb ni θ) := ⟨by linarith [Real.pi_pos, ht.1], ht.2⟩
  have rec1 := r_recip hb hni h0 hθ hsn hra' hlt1
  have hs2 : ni * Real.sin (thetaInside nb ni θ) = na * Real.sin θa := by rw [← hsn]; exact hs
  have rec2 := r_recip hni ha ht.1 hti2 hs2 hra (by rw [← hsn]; exact hlt2)
  rw [passFrac_eq, passFrac_eq]
  simp only [Option.getD_some]
  rw [hti]
  have m1 : rMean nb ni θ = rMean ni nb (thetaInside nb ni θ) := by unfold rMean; rw [rec1.1, rec1.2]
  have m2 : rMean ni na (thetaInside nb ni θ) = rMean na ni θa := by unfold rMean; rw [rec2.1, rec2.2]
  rw [m1, ← m2]
  congr 1
  · ring
  · ring

/-- Non-vacuity of C08: sample 1.5, coverslip 1.6, air 1 at normal incidence: hypotheses hold and the result is not 0. -/
example : passFrac (3/2) (some (8/5)) 1 0 ≠ 0 ∧
    rMean (8/5) (3/2) (thetaInside (3/2) (8/5) 0) * rMean (8/5) 1 (thetaInside (3/2) (8/5) 0) < 1 := by
  have hp := Real.pi_pos
  constructor
  · rw [Ne, C08_pass_frac_zero_iff _ (by norm_num) one_pos (by intro x hx; cases hx; norm_num) le_rfl (by linarith)]
    rw [Real.sin_zero]
    push Not
    refine ⟨by norm_num, by norm_num, by linarith⟩
  · have : thetaInside (3/2) (8/5) 0 = 0 := by
      unfold thetaInside; simp
    rw [this]
    unfold rMean
    rw [(C07_fresnel_normal (by norm_num) (by norm_num)).1, (C07_fresnel_normal (by norm_num) (by norm_num)).2,
      (C07_fresnel_normal (by norm_num) (by norm_num)).1, (C07_fresnel_normal (by norm_num) (by norm_num)).2]
    norm_num

end Verif.Props
