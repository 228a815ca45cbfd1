import Verif.Props.Limit

/-!
# C152: is the reflectance of the single-scattering model a fraction?
-/

namespace Verif.Props
noncomputable section
open Verif.Spec Verif.Root Verif.Fresnel Verif.Traj Verif.SingleScat _root_.Verif.XF
open MeasureTheory Set Filter Topology
open Verif (XF PyErr)

theorem sigmaDet_bounds {a : ReflIn} (h : Setup a) (hphi : a.phi_max - a.phi_min ≤ 2 * Real.pi) (hsm : a.small_angle ≤ Real.pi / 2)
    {d : ℝ → ℝ} (hd0 : ∀ t, 0 ≤ d t) (hd : ContinuousOn d (Icc 0 Real.pi)) {R : ℝ → ℝ → ℝ → ℝ}
    (hR : ∀ θ, 0 ≤ θ → θ ≤ Real.pi / 2 → 0 ≤ R a.n_sample a.n_medium θ ∧ R a.n_sample a.n_medium θ ≤ 1) :
    0 ≤ sigmaDet a d R ∧ sigmaDet a d R ≤ 2 * Real.pi / a.k ^ 2 * ∫ α in a.small_angle..Real.pi, d α * Real.sin α := by
  have hπ := Real.pi_pos
  have hin : ∀ t, Real.pi / 2 ≤ insideAngle a.n_medium a.n_sample t ∧ (Real.pi / 2 ≤ t → t ≤ Real.pi → insideAngle a.n_medium a.n_sample t ≤ Real.pi) := by
    intro t
    refine ⟨by unfold insideAngle; linarith [Real.arcsin_le_pi_div_two (a.n_medium * Real.sin t / a.n_sample)], fun h0 h1 => ?_⟩
    have : 0 ≤ a.n_medium * Real.sin t / a.n_sample :=
      div_nonneg (mul_nonneg h.medium.le (Real.sin_nonneg_of_nonneg_of_le_pi (by linarith) h1)) h.sample.le
    unfold insideAngle
    linarith [Real.arcsin_nonneg.mpr this]
  set A := insideAngle a.n_medium a.n_sample a.theta_min with hA
  set B := insideAngle a.n_medium a.n_sample a.theta_max with hB
  have hA0 := (hin a.theta_min).1
  have hB1 := (hin a.theta_max).2 (h.tmin.trans h.tmm) h.tmax
  have hAB : A ≤ B := by
    have hs : Real.sin a.theta_max ≤ Real.sin a.theta_min := by
      rw [← Real.sin_pi_sub a.theta_max, ← Real.sin_pi_sub a.theta_min]
      exact Real.sin_le_sin_of_le_of_le_pi_div_two (by linarith [h.tmax]) (by linarith [h.tmin]) (by linarith [h.tmm])
    have : Real.arcsin (a.n_medium * Real.sin a.theta_max / a.n_sample) ≤ Real.arcsin (a.n_medium * Real.sin a.theta_min / a.n_sample) := by
      apply Real.monotone_arcsin
      have := h.medium
      have := h.sample
      gcongr
    rw [hA, hB]; unfold insideAngle; linarith
  have hsub : Icc a.small_angle Real.pi ⊆ Icc 0 Real.pi := Icc_subset_Icc_left h.sm0
  have ii : IntervalIntegrable (fun α => d α * Real.sin α) volume a.small_angle Real.pi := by
    refine ContinuousOn.intervalIntegrable ?_
    rw [uIcc_of_le h.sm1]
    exact (hd.mono hsub).mul Real.continuous_sin.continuousOn
  have hk0 : 0 ≤ (a.phi_max - a.phi_min) / a.k ^ 2 := div_nonneg (by linarith [h.azi]) (sq_nonneg _)
  have hkle : (a.phi_max - a.phi_min) / a.k ^ 2 ≤ 2 * Real.pi / a.k ^ 2 := div_le_div_of_nonneg_right hphi (sq_nonneg _)
  have hpt : ∀ α ∈ Ioc A B, 0 ≤ d α * (1 - R a.n_sample a.n_medium (Real.pi - α)) * Real.sin α ∧
      d α * (1 - R a.n_sample a.n_medium (Real.pi - α)) * Real.sin α ≤ d α * Real.sin α := by
    intro α hα
    have h1 := hR (Real.pi - α) (by linarith [hα.2]) (by linarith [hα.1])
    have h2 : 0 ≤ Real.sin α := Real.sin_nonneg_of_nonneg_of_le_pi (by linarith [hα.1]) (by linarith [hα.2])
    have h3 := hd0 α
    have h4 := mul_nonneg h3 h2
    exact ⟨mul_nonneg (mul_nonneg h3 (by linarith [h1.2])) h2, by nlinarith [h1.1]⟩
  have hI : 0 ≤ (∫ α in A..B, d α * (1 - R a.n_sample a.n_medium (Real.pi - α)) * Real.sin α) ∧
      (∫ α in A..B, d α * (1 - R a.n_sample a.n_medium (Real.pi - α)) * Real.sin α) ≤ ∫ α in a.small_angle..Real.pi, d α * Real.sin α := by
    rw [intervalIntegral.integral_of_le hAB, intervalIntegral.integral_of_le h.sm1]
    refine ⟨setIntegral_nonneg measurableSet_Ioc fun α hα => (hpt α hα).1, ?_⟩
    have hss : Ioc A B ⊆ Ioc a.small_angle Real.pi := Ioc_subset_Ioc (by linarith) hB1
    have hint : IntegrableOn (fun α => d α * Real.sin α) (Ioc a.small_angle Real.pi) := ii.1
    refine le_trans (integral_mono_of_nonneg ?_ (hint.mono_set hss) ?_) (setIntegral_mono_set hint ?_ hss.eventuallyLE)
    · rw [Filter.EventuallyLE, ae_restrict_iff' measurableSet_Ioc]
      exact Eventually.of_forall fun α hα => (hpt α hα).1
    · rw [Filter.EventuallyLE, ae_restrict_iff' measurableSet_Ioc]
      exact Eventually.of_forall fun α hα => (hpt α hα).2
    · rw [Filter.EventuallyLE, ae_restrict_iff' measurableSet_Ioc]
      exact Eventually.of_forall fun α hα => mul_nonneg (hd0 α)
        (Real.sin_nonneg_of_nonneg_of_le_pi (by linarith [hα.1, h.sm0]) hα.2)
  unfold sigmaDet
  refine ⟨mul_nonneg hk0 hI.1, ?_⟩
  exact mul_le_mul hkle hI.2 hI.1 (div_nonneg (by linarith) (sq_nonneg _))

theorem fresnel_frac {n1 n2 θ : ℝ} (h1 : 0 < n1) (h2 : 0 < n2) (h0 : 0 ≤ θ) (hθ : θ ≤ Real.pi / 2) :
    (0 ≤ fresnelP n1 n2 θ ∧ fresnelP n1 n2 θ ≤ 1) ∧ (0 ≤ fresnelS n1 n2 θ ∧ fresnelS n1 n2 θ ≤ 1) := by
  have e := rPar_eq_fresnelP h1 h2 h0 hθ
  rw [← e.1, ← e.2]
  exact ⟨rPar_frac h1 h0 hθ, rPerp_frac h1 h0 hθ⟩

/-- C152, what holds.  A sample and a detector in the backward half space (not more than all the way around): as the grid of angles is refined,
the reflectance that `reflection` returns converges to a number that is not negative and exceeds 1 by at most half the difference of the
two Fresnel reflectances of the surface; it is a fraction at normal incidence and for equal indices. -/
theorem C152_reflectance_fraction_partial (a : ReflIn) (h : Setup a) (hphi : a.phi_max - a.phi_min ≤ 2 * Real.pi)
    (hsm : a.small_angle ≤ Real.pi / 2) (th : Option ℝ) (hth : ∀ L, th = some L → 0 ≤ L) :
    ∃ (R : ℕ → ℝ) (r : ℝ), (∀ᶠ n in atTop, ∃ o, reflection { a with num := n } th = .ok o ∧ o.reflectance = fin (R n)) ∧
      Tendsto R atTop (𝓝 r) ∧ 0 ≤ r ∧
      r ≤ 1 + |fresnelP a.n_medium a.n_sample a.incident - fresnelS a.n_medium a.n_sample a.incident| / 2 ∧
      (a.incident = 0 ∨ a.n_medium = a.n_sample → r ≤ 1) := by
  obtain ⟨R, P, S, g, l, hev, hP, hS, hR, -, -⟩ := C129_fine_grid a h th
  obtain ⟨⟨p0, p1⟩, s0, s1⟩ := fresnel_frac h.medium h.sample h.inc0 h.inc1
  set rp := fresnelP a.n_medium a.n_sample a.incident with hrp
  set rs := fresnelS a.n_medium a.n_sample a.incident with hrs
  have hd1 := sigmaDet_bounds h hphi hsm (fun t => (h.dcs t).1) h.cont1 (R := fresnelP) fun θ h0 h1 => (fresnel_frac h.sample h.medium h0 h1).1
  have hd2 := sigmaDet_bounds h hphi hsm (fun t => (h.dcs t).2) h.cont2 (R := fresnelS) fun θ h0 h1 => (fresnel_frac h.sample h.medium h0 h1).2
  set σ1 := sigmaDet a (fun t => (a.dcs t).1) fresnelP
  set σ2 := sigmaDet a (fun t => (a.dcs t).2) fresnelS
  have hσ := h.scatters
  have hc := h.cabs
  have hsum : σ1 + σ2 ≤ 2 * sigmaTotal a := by
    have hsub : Icc a.small_angle Real.pi ⊆ Icc 0 Real.pi := Icc_subset_Icc_left h.sm0
    have ii : ∀ d : ℝ → ℝ, ContinuousOn d (Icc 0 Real.pi) → IntervalIntegrable (fun α => d α * Real.sin α) volume a.small_angle Real.pi := by
      intro d hd
      refine ContinuousOn.intervalIntegrable ?_
      rw [uIcc_of_le h.sm1]
      exact (hd.mono hsub).mul Real.continuous_sin.continuousOn
    have e : 2 * sigmaTotal a = 2 * Real.pi / a.k ^ 2 * (∫ α in a.small_angle..Real.pi, (a.dcs α).1 * Real.sin α) +
        2 * Real.pi / a.k ^ 2 * ∫ α in a.small_angle..Real.pi, (a.dcs α).2 * Real.sin α := by
      unfold sigmaTotal
      rw [← mul_add, ← intervalIntegral.integral_add (ii _ h.cont1) (ii _ h.cont2), ← mul_assoc, mul_comm (2:ℝ), mul_assoc,
        ← intervalIntegral.integral_const_mul]
      congr 1
      refine intervalIntegral.integral_congr fun x _ => ?_
      ring
    rw [e]
    exact add_le_add hd1.2 hd2.2
  have hext : 0 < sigmaTotal a + a.cabs := by linarith
  have hw : 0 ≤ scatteredShare a th ∧ scatteredShare a th ≤ 1 := by
    rcases hth' : th with _ | L
    · exact ⟨zero_le_one, le_rfl⟩
    · have hL := hth L hth'
      have he1 : Real.exp (-(a.rho * (sigmaTotal a + a.cabs) * L)) ≤ 1 :=
        Real.exp_le_one_iff.mpr (neg_nonpos.mpr (mul_nonneg (mul_nonneg h.rho.le hext.le) hL))
      have he0 := Real.exp_pos (-(a.rho * (sigmaTotal a + a.cabs) * L))
      have hq0 : 0 ≤ sigmaTotal a / (sigmaTotal a + a.cabs) := by positivity
      have hq1 : sigmaTotal a / (sigmaTotal a + a.cabs) ≤ 1 := by rw [div_le_one hext]; linarith
      unfold scatteredShare
      exact ⟨mul_nonneg (by linarith) hq0, mul_le_one₀ (by linarith) hq0 hq1⟩
  set w := scatteredShare a th
  have hu1 : 0 ≤ σ1 / (sigmaTotal a + a.cabs) * w := mul_nonneg (div_nonneg hd1.1 hext.le) hw.1
  have hu2 : 0 ≤ σ2 / (sigmaTotal a + a.cabs) * w := mul_nonneg (div_nonneg hd2.1 hext.le) hw.1
  have hu : σ1 / (sigmaTotal a + a.cabs) * w + σ2 / (sigmaTotal a + a.cabs) * w ≤ 2 := by
    rw [← add_mul, ← add_div]
    have : (σ1 + σ2) / (sigmaTotal a + a.cabs) ≤ 2 := by rw [div_le_iff₀ hext]; linarith
    have h0 : 0 ≤ (σ1 + σ2) / (sigmaTotal a + a.cabs) := div_nonneg (add_nonneg hd1.1 hd2.1) hext.le
    nlinarith [hw.1, hw.2]
  set u1 := σ1 / (sigmaTotal a + a.cabs) * w
  set u2 := σ2 / (sigmaTotal a + a.cabs) * w
  have hlim : Tendsto R atTop (𝓝 (((rp + (1 - rp) * (σ1 / (sigmaTotal a + a.cabs)) * w) + (rs + (1 - rs) * (σ2 / (sigmaTotal a + a.cabs)) * w)) / 2)) := by
    have := (hP.add hS).div_const 2
    exact this.congr fun n => (hR n).symm
  have hval : ((rp + (1 - rp) * (σ1 / (sigmaTotal a + a.cabs)) * w) + (rs + (1 - rs) * (σ2 / (sigmaTotal a + a.cabs)) * w)) / 2 =
      ((rp + (1 - rp) * u1) + (rs + (1 - rs) * u2)) / 2 := by
    simp only [u1, u2]; ring
  rw [hval] at hlim
  have hbound : ((rp + (1 - rp) * u1) + (rs + (1 - rs) * u2)) / 2 ≤ 1 + |rp - rs| / 2 := by
    rcases le_total rp rs with hle | hle
    · rw [abs_of_nonpos (by linarith)]
      nlinarith
    · rw [abs_of_nonneg (by linarith)]
      nlinarith
  refine ⟨R, _, ?_, hlim, ?_, hbound, ?_⟩
  · filter_upwards [hev] with n hn
    exact ⟨_, hn, rfl⟩
  · have := mul_nonneg (sub_nonneg.mpr p1) hu1
    have := mul_nonneg (sub_nonneg.mpr s1) hu2
    linarith
  · intro hcase
    have hps : rp = rs := by
      rw [hrp, hrs]
      unfold fresnelP fresnelS
      rcases hcase with h0 | h0
      · rw [h0, Real.sin_zero, mul_zero, zero_div, Real.arcsin_zero, if_neg (not_le.mpr h.sample), if_neg (not_le.mpr h.sample)]
        unfold textbookRp textbookRs
        rw [Real.cos_zero]
      · rw [h0]
        split_ifs with hc
        · rfl
        · have hns := h.sample.ne'
          rw [mul_div_cancel_left₀ _ hns, Real.arcsin_sin (by linarith [h.inc0, Real.pi_pos]) h.inc1]
          rfl
    rw [hps, sub_self, abs_zero, zero_div, add_zero] at hbound
    rw [hps]
    exact hbound

/-- A sample that matches the medium, absorbs nothing and scatters mostly backwards and only in the parallel polarisation; all of the backward
half space is detected. -/
def backParallel : ReflIn :=
  { exampleSample with cabs := 0, dcs := fun t => (1 - Real.cos t, 0) }

theorem integral_back (l : ℝ) : ∫ α in l..Real.pi, (1 - Real.cos α) * Real.sin α = (2 ^ 2 - (1 - Real.cos l) ^ 2) / 2 := by
  have e := intervalIntegral.integral_eq_sub_of_hasDerivAt (a := l) (b := Real.pi) (f := fun t => (1 - Real.cos t) ^ 2 / 2)
    (f' := fun t => (1 - Real.cos t) * Real.sin t) (fun x _ => by
      have h1 := ((Real.hasDerivAt_cos x).const_sub 1).pow 2
      have h2 := h1.div_const 2
      refine h2.congr_deriv ?_
      norm_num
      ring) (by
      refine Continuous.intervalIntegrable ?_ _ _
      fun_prop)
  rw [e]
  simp only [Real.cos_pi]
  ring

theorem backParallel_total : sigmaTotal backParallel = 2 * Real.pi := by
  have e : ∀ α : ℝ, (1 - Real.cos α + 0) / 2 * Real.sin α = 1 / 2 * ((1 - Real.cos α) * Real.sin α) := fun α => by ring
  simp only [sigmaTotal, backParallel, exampleSample, e]
  rw [intervalIntegral.integral_const_mul, integral_back]
  simp
  ring

theorem backParallel_setup : Setup backParallel := by
  have hπ := Real.pi_pos
  refine ⟨one_pos, one_pos, le_rfl, by simp only [backParallel, exampleSample]; positivity, le_rfl,
    by simp only [backParallel, exampleSample]; linarith, le_rfl, by simp only [backParallel, exampleSample]; positivity, le_rfl, hπ.le, one_pos,
    le_rfl, fun t => ⟨?_, le_rfl⟩, ?_, continuousOn_const, by rw [backParallel_total]; positivity⟩
  · simp only [backParallel]; linarith [Real.cos_le_one t]
  · simp only [backParallel]; fun_prop

theorem fresnelP_same {θ : ℝ} (h0 : 0 ≤ θ) (hθ : θ < Real.pi / 2) : fresnelP 1 1 θ = 0 := by
  have h1 : Real.sin θ < 1 := by
    rw [← Real.sin_pi_div_two]
    exact Real.sin_lt_sin_of_lt_of_le_pi_div_two (by linarith [Real.pi_pos]) le_rfl hθ
  unfold fresnelP
  rw [if_neg (by rw [one_mul]; exact not_le.mpr h1), one_mul, div_one, Real.arcsin_sin (by linarith [Real.pi_pos]) hθ.le]
  unfold textbookRp
  simp

theorem backParallel_detected : sigmaDet backParallel (fun t => (backParallel.dcs t).1) fresnelP = 3 * Real.pi := by
  have hA : insideAngle 1 1 (Real.pi / 2) = Real.pi / 2 := by
    unfold insideAngle; rw [Real.sin_pi_div_two, one_mul, div_one, Real.arcsin_one]; ring
  have hB : insideAngle 1 1 Real.pi = Real.pi := by
    unfold insideAngle; rw [Real.sin_pi, mul_zero, zero_div, Real.arcsin_zero, sub_zero]
  simp only [sigmaDet, backParallel, exampleSample, hA, hB]
  have e : ∫ α in Real.pi / 2..Real.pi, (1 - Real.cos α) * (1 - fresnelP 1 1 (Real.pi - α)) * Real.sin α =
      ∫ α in Real.pi / 2..Real.pi, (1 - Real.cos α) * Real.sin α := by
    have hle : Real.pi / 2 ≤ Real.pi := by linarith [Real.pi_pos]
    rw [intervalIntegral.integral_of_le hle, intervalIntegral.integral_of_le hle]
    refine setIntegral_congr_fun measurableSet_Ioc fun α hα => ?_
    rw [fresnelP_same (by linarith [hα.2]) (by linarith [hα.1]), sub_zero, mul_one]
  rw [e, integral_back, Real.cos_pi_div_two]
  norm_num
  ring

/-- C152, refuted for one polarisation: nothing keeps the reflectance that `reflection` returns for parallel polarised light below 1.  For a
sample that scatters mostly backwards in that polarisation it converges to 3/2 (the total cross section it is divided by is the average over
both polarisations), so it exceeds 1 on every fine enough grid. -/
theorem C152_polarised_refuted :
    ∃ a : ReflIn, Setup a ∧ a.phi_max - a.phi_min = 2 * Real.pi ∧ a.n_medium = a.n_sample ∧ a.incident = 0 ∧
      ∀ᶠ n in atTop, ∃ o p, reflection { a with num := n } none = .ok o ∧ o.par = fin p ∧ 1 < p := by
  refine ⟨backParallel, backParallel_setup, by simp [backParallel, exampleSample], rfl, rfl, ?_⟩
  obtain ⟨R, P, S, g, l, hev, hP, -, -, -, -⟩ := C129_fine_grid backParallel backParallel_setup none
  rw [backParallel_detected, backParallel_total,
    show fresnelP backParallel.n_medium backParallel.n_sample backParallel.incident = 0 from
      fresnelP_same (θ := 0) le_rfl (by linarith [Real.pi_pos])] at hP
  have h1 : (1 : ℝ) < 0 + (1 - 0) * (3 * Real.pi / (2 * Real.pi + backParallel.cabs)) * scatteredShare backParallel none := by
    have : backParallel.cabs = 0 := rfl
    rw [this, scatteredShare]
    have hπ := Real.pi_pos
    rw [add_zero, sub_zero, one_mul, zero_add, mul_one, lt_div_iff₀ (by positivity)]
    linarith
  filter_upwards [hev, hP.eventually (lt_mem_nhds h1)] with n hn hp
  exact ⟨_, _, hn, rfl, hp⟩

/-- A sample of index 2 in air, lit at Brewster's angle, that scatters only backwards (within 26 degrees) and only in the parallel
polarisation; all of the backward half space is detected. -/
def brewster : ReflIn :=
  { exampleSample with n_sample := 2, cabs := 0, incident := Real.arcsin (Real.sqrt (4 / 5)), dcs := fun t => (max 0 (-Real.cos t - 9 / 10), 0) }

theorem brewster_incident : fresnelP 1 2 (Real.arcsin (Real.sqrt (4 / 5))) = 0 ∧ fresnelS 1 2 (Real.arcsin (Real.sqrt (4 / 5))) = 9 / 25 := by
  have h45 : Real.sqrt (4 / 5) = 2 * Real.sqrt (1 / 5) := by
    rw [show (4 : ℝ) / 5 = 2 ^ 2 * (1 / 5) by norm_num, Real.sqrt_mul (by norm_num), Real.sqrt_sq (by norm_num)]
  have hq : 0 < Real.sqrt (1 / 5) := Real.sqrt_pos.mpr (by norm_num)
  have hqq : Real.sqrt (1 / 5) ^ 2 = 1 / 5 := Real.sq_sqrt (by norm_num)
  have hle : Real.sqrt (4 / 5) ≤ 1 := Real.sqrt_le_one.mpr (by norm_num)
  have hs : Real.sin (Real.arcsin (Real.sqrt (4 / 5))) = Real.sqrt (4 / 5) := Real.sin_arcsin (by linarith [Real.sqrt_nonneg (4 / 5 : ℝ)]) hle
  have hc : Real.cos (Real.arcsin (Real.sqrt (4 / 5))) = Real.sqrt (1 / 5) := by
    rw [Real.cos_arcsin, Real.sq_sqrt (by norm_num)]; norm_num
  have hc2 : Real.cos (Real.arcsin (1 * Real.sqrt (4 / 5) / 2)) = 2 * Real.sqrt (1 / 5) := by
    rw [Real.cos_arcsin, one_mul, div_pow, Real.sq_sqrt (by norm_num), ← h45]; norm_num
  have hn : ¬ (2 : ℝ) ≤ 1 * Real.sqrt (4 / 5) := by linarith
  unfold fresnelP fresnelS textbookRp textbookRs
  rw [hs, if_neg hn, if_neg hn, hc, hc2]
  refine ⟨by ring, ?_⟩
  rw [show (1 : ℝ) * Real.sqrt (1 / 5) - 2 * (2 * Real.sqrt (1 / 5)) = -3 * Real.sqrt (1 / 5) by ring,
    show (1 : ℝ) * Real.sqrt (1 / 5) + 2 * (2 * Real.sqrt (1 / 5)) = 5 * Real.sqrt (1 / 5) by ring, div_pow, mul_pow, mul_pow, hqq]
  norm_num

theorem brewster_inside {β : ℝ} (h0 : 0 ≤ β) (hβ : β ≤ Real.pi / 2) (hc : 9 / 10 < Real.cos β) : fresnelP 2 1 β ≤ 1 / 9 := by
  have hs0 : 0 ≤ Real.sin β := Real.sin_nonneg_of_nonneg_of_le_pi h0 (by linarith [Real.pi_pos])
  have hsc := Real.sin_sq_add_cos_sq β
  have hs2 : Real.sin β ^ 2 < 19 / 100 := by nlinarith
  have hs1 : Real.sin β < 1 / 2 := by nlinarith
  unfold fresnelP textbookRp
  rw [if_neg (by linarith), Real.cos_arcsin, div_one]
  set y := Real.cos β
  set x := Real.sqrt (1 - (2 * Real.sin β) ^ 2) with hx
  have hx2 : x ^ 2 = 1 - (2 * Real.sin β) ^ 2 := Real.sq_sqrt (by nlinarith)
  have hx0 : 0 < x := Real.sqrt_pos.mpr (by nlinarith)
  have hxy : x ≤ y := by
    refine abs_le_of_sq_le_sq' ?_ (by linarith) |>.2
    nlinarith
  have hy4 : y ≤ 4 * x := by
    refine abs_le_of_sq_le_sq' ?_ (by linarith) |>.2
    nlinarith
  rw [div_pow, div_le_div_iff₀ (by positivity) (by norm_num)]
  nlinarith [mul_nonneg (sub_nonneg.mpr hxy) (sub_nonneg.mpr hy4)]

theorem brewster_small {α : ℝ} (h0 : 0 ≤ α) (h1 : α ≤ 5 * Real.pi / 6) : max 0 (-Real.cos α - 9 / 10) = 0 := by
  refine max_eq_left ?_
  have := Real.cos_le_cos_of_nonneg_of_le_pi h0 (by linarith [Real.pi_pos]) h1
  have e : Real.cos (5 * Real.pi / 6) = -(Real.sqrt 3 / 2) := by
    rw [show 5 * Real.pi / 6 = Real.pi - Real.pi / 6 by ring, Real.cos_pi_sub, Real.cos_pi_div_six]
  have h3 : Real.sqrt 3 ≤ 9 / 5 := by
    rw [Real.sqrt_le_left (by norm_num)]; norm_num
  linarith

theorem brewster_cont : Continuous fun α => max 0 (-Real.cos α - 9 / 10) * Real.sin α := by fun_prop

theorem brewster_total : sigmaTotal brewster = Real.pi * (∫ α in (5 * Real.pi / 6)..Real.pi, max 0 (-Real.cos α - 9 / 10) * Real.sin α) ∧
    0 < ∫ α in (5 * Real.pi / 6)..Real.pi, max 0 (-Real.cos α - 9 / 10) * Real.sin α := by
  have hπ := Real.pi_pos
  constructor
  · have e : ∀ α : ℝ, (max 0 (-Real.cos α - 9 / 10) + 0) / 2 * Real.sin α = 1 / 2 * (max 0 (-Real.cos α - 9 / 10) * Real.sin α) := fun α => by ring
    simp only [sigmaTotal, brewster, exampleSample, e]
    rw [intervalIntegral.integral_const_mul, ← intervalIntegral.integral_add_adjacent_intervals (b := 5 * Real.pi / 6)
      (brewster_cont.intervalIntegrable _ _) (brewster_cont.intervalIntegrable _ _)]
    have e0 : ∫ α in (0 : ℝ)..(5 * Real.pi / 6), max 0 (-Real.cos α - 9 / 10) * Real.sin α = 0 := by
      rw [intervalIntegral.integral_of_le (by positivity), setIntegral_congr_fun (g := fun _ => (0 : ℝ)) measurableSet_Ioc fun α hα => ?_]
      · simp
      · show _ * _ = _
        rw [brewster_small hα.1.le hα.2, zero_mul]
    rw [e0]
    ring
  · refine intervalIntegral.integral_pos (by linarith) brewster_cont.continuousOn (fun α hα => mul_nonneg (le_max_left _ _)
      (Real.sin_nonneg_of_nonneg_of_le_pi (by linarith [hα.1]) hα.2)) ⟨Real.pi - Real.pi / 10, ⟨by linarith, by linarith⟩, ?_⟩
    rw [Real.cos_pi_sub, Real.sin_pi_sub]
    refine mul_pos (lt_max_of_lt_right ?_) (Real.sin_pos_of_pos_of_lt_pi (by positivity) (by linarith))
    have := Real.one_sub_sq_div_two_le_cos (x := Real.pi / 10)
    have h4 := Real.pi_le_four
    nlinarith

theorem brewster_setup : Setup brewster := by
  have hπ := Real.pi_pos
  refine ⟨one_pos, two_pos, Real.arcsin_nonneg.mpr (Real.sqrt_nonneg _), Real.arcsin_le_pi_div_two _, le_rfl,
    by simp only [brewster, exampleSample]; linarith, le_rfl, by simp only [brewster, exampleSample]; positivity, le_rfl, hπ.le, one_pos,
    le_rfl, fun t => ⟨le_max_left _ _, le_rfl⟩, ?_, continuousOn_const, by rw [brewster_total.1]; exact mul_pos hπ brewster_total.2⟩
  simp only [brewster]; fun_prop

theorem fresnelP_measurable (n1 n2 : ℝ) : Measurable (fresnelP n1 n2) := by
  unfold fresnelP textbookRp
  refine Measurable.ite (measurableSet_le measurable_const (by fun_prop)) measurable_const ?_
  have := Real.measurable_arcsin
  fun_prop

theorem brewster_detected : 2 * Real.pi * (8 / 9 * ∫ α in (5 * Real.pi / 6)..Real.pi, max 0 (-Real.cos α - 9 / 10) * Real.sin α) ≤
    sigmaDet brewster (fun t => (brewster.dcs t).1) fresnelP := by
  have hπ := Real.pi_pos
  have hA : insideAngle 1 2 (Real.pi / 2) = 5 * Real.pi / 6 := by
    unfold insideAngle
    rw [Real.sin_pi_div_two, one_mul, ← Real.sin_pi_div_six, Real.arcsin_sin (by linarith) (by linarith)]; ring
  have hB : insideAngle 1 2 Real.pi = Real.pi := by
    unfold insideAngle; rw [Real.sin_pi, mul_zero, zero_div, Real.arcsin_zero, sub_zero]
  simp only [sigmaDet, brewster, exampleSample, hA, hB]
  rw [sub_zero, one_pow, div_one]
  refine mul_le_mul_of_nonneg_left ?_ (by positivity)
  rw [← intervalIntegral.integral_const_mul]
  have hle : 5 * Real.pi / 6 ≤ Real.pi := by linarith
  rw [intervalIntegral.integral_of_le hle, intervalIntegral.integral_of_le hle]
  have hI : IntegrableOn (fun α => 8 / 9 * (max 0 (-Real.cos α - 9 / 10) * Real.sin α)) (Ioc (5 * Real.pi / 6) Real.pi) :=
    ((brewster_cont.const_mul (8 / 9)).integrableOn_Icc).mono_set Ioc_subset_Icc_self
  have hJ : IntegrableOn (fun α => max 0 (-Real.cos α - 9 / 10) * Real.sin α) (Ioc (5 * Real.pi / 6) Real.pi) :=
    (brewster_cont.integrableOn_Icc).mono_set Ioc_subset_Icc_self
  have hfr : ∀ α ∈ Ioc (5 * Real.pi / 6) Real.pi, 0 ≤ fresnelP 2 1 (Real.pi - α) ∧ fresnelP 2 1 (Real.pi - α) ≤ 1 := fun α hα =>
    (fresnel_frac two_pos one_pos (by linarith [hα.2]) (by linarith [hα.1])).1
  have hd : ∀ α ∈ Ioc (5 * Real.pi / 6) Real.pi, 0 ≤ max 0 (-Real.cos α - 9 / 10) * Real.sin α := fun α hα =>
    mul_nonneg (le_max_left _ _) (Real.sin_nonneg_of_nonneg_of_le_pi (by linarith [hα.1]) hα.2)
  refine setIntegral_mono_on hI ?_ measurableSet_Ioc fun α hα => ?_
  · refine Integrable.mono hJ ?_ ?_
    · refine Measurable.aestronglyMeasurable ?_
      have := (fresnelP_measurable 2 1).comp (measurable_const.sub measurable_id : Measurable fun α : ℝ => Real.pi - α)
      have h2 : Measurable fun α : ℝ => fresnelP 2 1 (Real.pi - α) := this
      fun_prop
    · rw [ae_restrict_iff' measurableSet_Ioc]
      refine Eventually.of_forall fun α hα => ?_
      have h1 := hfr α hα
      have h2 := hd α hα
      rw [show max 0 (-Real.cos α - 9 / 10) * (1 - fresnelP 2 1 (Real.pi - α)) * Real.sin α =
        (1 - fresnelP 2 1 (Real.pi - α)) * (max 0 (-Real.cos α - 9 / 10) * Real.sin α) by ring, norm_mul, Real.norm_eq_abs, abs_of_nonneg (by linarith)]
      exact mul_le_of_le_one_left (norm_nonneg _) (by linarith)
  · have h2 := hd α hα
    rw [show max 0 (-Real.cos α - 9 / 10) * (1 - fresnelP 2 1 (Real.pi - α)) * Real.sin α =
        (1 - fresnelP 2 1 (Real.pi - α)) * (max 0 (-Real.cos α - 9 / 10) * Real.sin α) by ring]
    by_cases hc : 9 / 10 < -Real.cos α
    · have := brewster_inside (β := Real.pi - α) (by linarith [hα.2]) (by linarith [hα.1]) (by rw [Real.cos_pi_sub]; exact hc)
      exact mul_le_mul_of_nonneg_right (by linarith) h2
    · rw [max_eq_left (by linarith), zero_mul, mul_zero, mul_zero]

/-- C152, refuted for unpolarised light that does not come in along the normal: nothing keeps the returned reflectance (the average over the
polarisations) below 1 either.  At Brewster's angle all of the parallel polarised light enters the sample; if it is all scattered back in that
polarisation, it counts twice, and the light that the surface reflects in the other polarisation comes on top. -/
theorem C152_oblique_refuted :
    ∃ a : ReflIn, Setup a ∧ a.phi_max - a.phi_min = 2 * Real.pi ∧ a.small_angle = 0 ∧
      ∀ᶠ n in atTop, ∃ o r, reflection { a with num := n } none = .ok o ∧ o.reflectance = fin r ∧ 1 < r := by
  refine ⟨brewster, brewster_setup, by simp [brewster, exampleSample], rfl, ?_⟩
  obtain ⟨R, P, S, g, l, hev, hP, hS, hR, -, -⟩ := C129_fine_grid brewster brewster_setup none
  have hS0 : sigmaDet brewster (fun t => (brewster.dcs t).2) fresnelS = 0 := by
    simp [sigmaDet, brewster]
  have ep : fresnelP brewster.n_medium brewster.n_sample brewster.incident = 0 := brewster_incident.1
  have es : fresnelS brewster.n_medium brewster.n_sample brewster.incident = 9 / 25 := brewster_incident.2
  have ec : brewster.cabs = 0 := rfl
  rw [ep, ec, add_zero, zero_add, sub_zero, one_mul, scatteredShare, mul_one] at hP
  rw [es, hS0, zero_div, mul_zero, zero_mul, add_zero] at hS
  have hu : 16 / 9 ≤ sigmaDet brewster (fun t => (brewster.dcs t).1) fresnelP / sigmaTotal brewster := by
    rw [le_div_iff₀ brewster_setup.scatters, brewster_total.1]
    refine le_trans (le_of_eq ?_) brewster_detected
    ring
  have hlim := ((hP.add hS).div_const 2).congr fun n => (hR n).symm
  have h1 : (1 : ℝ) < (sigmaDet brewster (fun t => (brewster.dcs t).1) fresnelP / sigmaTotal brewster + 9 / 25) / 2 := by linarith
  filter_upwards [hev, hlim.eventually (lt_mem_nhds h1)] with n hn hr
  exact ⟨_, _, hn, rfl, hr⟩

/-- Non-vacuity of `C152_reflectance_fraction_partial`: the example sample with light at 45 degrees and half of the back scattered light
detected. -/
example : Setup { exampleSample with incident := Real.pi / 4, phi_max := Real.pi } ∧ (Real.pi - 0 ≤ 2 * Real.pi) ∧ ((0 : ℝ) ≤ Real.pi / 2) := by
  have hπ := Real.pi_pos
  refine ⟨⟨one_pos, one_pos, by positivity, by dsimp only; linarith, le_rfl, by simp only [exampleSample]; linarith, le_rfl,
    by simp only [exampleSample]; positivity, le_rfl, hπ.le, one_pos, zero_le_one, fun t => ⟨zero_le_one, zero_le_one⟩, continuousOn_const,
    continuousOn_const, ?_⟩, by linarith, by positivity⟩
  have hσ : sigmaTotal { exampleSample with incident := Real.pi / 4, phi_max := Real.pi } = 4 * Real.pi := by
    simp only [sigmaTotal, exampleSample]
    norm_num
    ring
  rw [hσ]; positivity

end
end Verif.Props
