import Verif.Props.Limit
import Verif.Props.FineGrid
import Verif.Props.MeanDepth
import Verif.Props.Reflection

/-!
# C131: Monte Carlo photons penetrate, on average, to the transport length that the single-scattering model reports
-/

namespace Verif.Props
open MeasureTheory ProbabilityTheory Filter Topology Set
open Verif.Spec Verif.Traj Verif.Riemann Verif.Reflection XF
open Verif.SingleScat (ReflIn ReflOut vfArray)
open Verif (XF PyErr)

variable {nt : ℕ}

/-- the mean cosine is strictly between -1 and 1 -/
private theorem abs_cos_lt {w : ℝ → ℝ} {m : ℝ} (hm0 : 0 ≤ m) (hm1 : m < Real.pi) (hw : ContinuousOn w (Icc m Real.pi))
    (hw0 : ∀ x ∈ Icc m Real.pi, 0 ≤ w x) (hpos : 0 < ∫ x in m..Real.pi, w x * Real.sin x) :
    |∫ x in m..Real.pi, w x * Real.sin x * Real.cos x| < ∫ x in m..Real.pi, w x * Real.sin x := by
  have hsin : ∀ x ∈ Icc m Real.pi, 0 ≤ Real.sin x := fun x hx => Real.sin_nonneg_of_nonneg_of_le_pi (hm0.trans hx.1) hx.2
  have hws : ContinuousOn (fun x => w x * Real.sin x) (Icc m Real.pi) := hw.mul Real.continuous_sin.continuousOn
  have hwc : ContinuousOn (fun x => w x * Real.sin x * Real.cos x) (Icc m Real.pi) := hws.mul Real.continuous_cos.continuousOn
  have i1 : IntervalIntegrable (fun x => w x * Real.sin x) volume m Real.pi :=
    ContinuousOn.intervalIntegrable (by rwa [uIcc_of_le hm1.le])
  have i2 : IntervalIntegrable (fun x => w x * Real.sin x * Real.cos x) volume m Real.pi :=
    ContinuousOn.intervalIntegrable (by rwa [uIcc_of_le hm1.le])
  obtain ⟨x0, hx0, hp0⟩ : ∃ x ∈ Icc m Real.pi, 0 < w x * Real.sin x := by
    by_contra h
    push Not at h
    have := intervalIntegral.integral_mono_on hm1.le i1 (intervalIntegrable_const (c := (0 : ℝ))) (fun x hx => h x hx)
    simp at this
    linarith
  have hs0 : Real.sin x0 ≠ 0 := fun h => by rw [h, mul_zero] at hp0; exact lt_irrefl _ hp0
  have hc0 : Real.cos x0 ^ 2 < 1 := by
    have := Real.sin_sq_add_cos_sq x0
    have : 0 < Real.sin x0 ^ 2 := by positivity
    linarith
  have hc1 : -1 < Real.cos x0 ∧ Real.cos x0 < 1 := by
    constructor <;> nlinarith
  have p1 : 0 < ∫ x in m..Real.pi, (w x * Real.sin x - w x * Real.sin x * Real.cos x) := by
    refine intervalIntegral.integral_pos hm1 (hws.sub hwc) (fun x hx => ?_) ⟨x0, hx0, ?_⟩
    · have := mul_nonneg (hw0 x ⟨hx.1.le, hx.2⟩) (hsin x ⟨hx.1.le, hx.2⟩)
      nlinarith [Real.cos_le_one x]
    · nlinarith [hc1.2]
  have p2 : 0 < ∫ x in m..Real.pi, (w x * Real.sin x + w x * Real.sin x * Real.cos x) := by
    refine intervalIntegral.integral_pos hm1 (hws.add hwc) (fun x hx => ?_) ⟨x0, hx0, ?_⟩
    · have := mul_nonneg (hw0 x ⟨hx.1.le, hx.2⟩) (hsin x ⟨hx.1.le, hx.2⟩)
      nlinarith [Real.neg_one_le_cos x]
    · nlinarith [hc1.1]
  rw [intervalIntegral.integral_sub i1 i2] at p1
  rw [intervalIntegral.integral_add i1 i2] at p2
  rw [abs_lt]
  constructor <;> linarith

/-- **C131.**  One transparent sample, described to both models, with continuous differential cross sections.  As the common grid of
scattering angles is refined, both `reflection` and `calc_scat` succeed, and the transport length that `reflection` reports converges to a
length `l`.  Photons simulated with the phase function and the scattering coefficient of `calc_scat`, starting along z, have after `e`
steps a mean depth that converges to a depth `z e` as the grid is refined; and `z e` tends to the same length `l` as the number of steps grows.
-/
theorem C131_transport_length {Ω : Type} [MeasurableSpace Ω] (P : Measure Ω) [IsProbabilityMeasure P]
    (A : (ℕ × Fin nt) × Fin 2 → Ω → ℝ) (S : ℕ × Fin nt → Ω → ℝ) (V : ℕ → Ω → ℝ) (hU : UniformDraws P (Sum.elim A (Sum.elim S V)))
    (E : Ext) (hE : IntegFinite E) {a : Reflection.Args} {mc : CalcScat.Args} {neff : ℂ}
    (hs : SameSample a mc neff) (ha : Sensible a)
    (hneff : a.effective_medium_struct = true → E.neff a.n_particle a.n_matrix (vfArray a.volume_fraction a.radius) = .ok neff)
    (hconc : a.concentration = none → a.form_type ≠ some "polydisperse" ∧
      ∀ c : DcsCall, E.dcs { c with concentration := none } = E.dcs { c with concentration := some (1, 0) })
    (hlen : a.n_particle.length = a.radius.length) {n : ℂ} {xe : Option (List ℂ)} {f : ℝ → ℝ × ℝ}
    (hsn : sampleOf E a = .ok (n, xe)) (hf : E.dcs (dcsCall a n xe) = .ok f) (hn : n.im = 0)
    (hset : Setup (transparent E a n (dcsCall a n xe) f)) (hsm : a.small_angle < Real.pi)
    (hok : ∀ N, ∃ r, mcScat E { mc with num_angles := N + 1 } = .ok r) :
    ∃ (p : ∀ N, Fin (N + 1) → ℝ) (mu l z : ℕ → ℝ) (L : ℝ),
      (∀ᶠ N in atTop, mcScat E { mc with num_angles := N + 1 } = .ok (fun k => fin (p N k), [fin (mu N)], fin 0)) ∧
      (∀ᶠ N in atTop, ∃ o, Reflection.reflection E { a with num_angles := N + 1 } = .ok o ∧ o.transport_length = fin (l N)) ∧
      Tendsto l atTop (𝓝 L) ∧
      (∀ (nevents : ℕ) (ang : ℕ → Ω → Angles nt) (step : ℕ → Ω → ℕ → Fin nt → ℝ) (kn p0 : ℕ → Fin nt → V3) (j : Fin nt),
        kn 0 j = ⟨0, 0, 1⟩ →
        (∀ᶠ N in atTop, ∀ ω, sampleAnglesRng1 nevents (p N) a.small_angle (fun i j => A ((i, j), 0) ω) (fun i j => A ((i, j), 1) ω) =
          .ok (ang N ω)) →
        (∀ᶠ N in atTop, ∀ ω, sampleStep nt (mu N) none 0 (fun i j => S (i, j) ω) (fun j => V j ω) = .ok fun i j => fin (step N ω i j)) →
        ∀ e ≤ nevents, Tendsto (fun N => ∫ ω, (move p0 (step N ω)
          (scatter nevents kn (ang N ω).sintheta (ang N ω).costheta (ang N ω).sinphi (ang N ω).cosphi) e j).z ∂P - (p0 0 j).z)
          atTop (𝓝 (z e))) ∧
      Tendsto z atTop (𝓝 L) := by
  set b := transparent E a n (dcsCall a n xe) f with hb
  have hπ := Real.pi_pos
  obtain ⟨R, Pp, Ps, g, l, hev, -, -, -, hg, hl⟩ := C129_fine_grid b hset a.thickness
  have hb_dcs : b.dcs = f := rfl
  have hb_sm : b.small_angle = a.small_angle := rfl
  have hsm0 : 0 ≤ a.small_angle := hset.sm0
  set w : ℝ → ℝ := fun t => (f t).1 + (f t).2 with hw
  have hw0 : ∀ t, 0 ≤ w t := fun t => add_nonneg (hset.dcs t).1 (hset.dcs t).2
  have hwc : ContinuousOn w (Icc 0 Real.pi) := hset.cont1.add hset.cont2
  have hwc' : ContinuousOn w (Icc a.small_angle Real.pi) := hwc.mono (Icc_subset_Icc_left hsm0)
  have hk2 : 0 < 2 * Real.pi / b.k ^ 2 := by
    have hk : b.k ≠ 0 := by
      intro h0
      have := hset.scatters
      rw [sigmaTotal, h0] at this
      norm_num at this
    positivity
  have eσ : sigmaTotal b = Real.pi / b.k ^ 2 * ∫ t in a.small_angle..Real.pi, w t * Real.sin t := by
    unfold sigmaTotal
    have : ∀ t, ((b.dcs t).1 + (b.dcs t).2) / 2 * Real.sin t = 1 / 2 * (w t * Real.sin t) := fun t => by rw [hb_dcs, hw]; ring
    simp only [this, hb_sm, intervalIntegral.integral_const_mul]
    ring
  have ec : sigmaCos b = Real.pi / b.k ^ 2 * ∫ t in a.small_angle..Real.pi, w t * Real.sin t * Real.cos t := by
    unfold sigmaCos
    have : ∀ t, ((b.dcs t).1 + (b.dcs t).2) / 2 * Real.cos t * Real.sin t = 1 / 2 * (w t * Real.sin t * Real.cos t) :=
      fun t => by rw [hb_dcs, hw]; ring
    simp only [this, hb_sm, intervalIntegral.integral_const_mul]
    ring
  have hkk : 0 < Real.pi / b.k ^ 2 := by
    have : 2 * Real.pi / b.k ^ 2 = 2 * (Real.pi / b.k ^ 2) := by ring
    linarith
  have hint : 0 < ∫ t in a.small_angle..Real.pi, w t * Real.sin t := by
    have := hset.scatters
    rw [eσ] at this
    exact (mul_pos_iff_of_pos_left hkk).mp this
  set G := sigmaCos b / sigmaTotal b with hG
  have eG : G = (∫ t in a.small_angle..Real.pi, w t * Real.sin t * Real.cos t) / ∫ t in a.small_angle..Real.pi, w t * Real.sin t := by
    rw [hG, eσ, ec, mul_div_mul_left _ _ hkk.ne']
  have hG1 : |G| < 1 := by
    rw [eG, abs_div, abs_of_pos hint, div_lt_one hint]
    exact abs_cos_lt hsm0 hsm hwc' (fun x _ => hw0 x) hint
  have hG1' : 1 - G ≠ 0 := by
    have := (abs_lt.mp hG1).2
    linarith
  obtain ⟨hdens, hrho⟩ := density_agree hs ha
  have hσ := hset.scatters
  -- both calls, on the grid of N + 1 angles
  have hrefl : ∀ᶠ N in atTop, Reflection.reflection E { a with num_angles := N + 1 } =
      .ok ⟨fin (R (N + 1)), fin (Pp (N + 1)), fin (Ps (N + 1)), fin (g (N + 1)), fin (l (N + 1))⟩ := by
    filter_upwards [(tendsto_add_atTop_nat 1).eventually hev] with N hN
    unfold Reflection.reflection
    rw [if_neg (by simpa using hlen)]
    have e1 : sampleOf E { a with num_angles := N + 1 } = .ok (n, xe) := hsn
    have e2 : E.dcs (dcsCall { a with num_angles := N + 1 } n xe) = .ok f := hf
    rw [e1]
    simp only [Bind.bind, Except.bind]
    rw [e2]
    simp only [hn, abs_zero, lt_irrefl, if_false]
    exact hN
  have hmcN : ∀ N, ∃ (p : Fin (N + 1) → XF) (mus : List XF) (mua : XF), mcScat E { mc with num_angles := N + 1 } = .ok (p, mus, mua) := by
    intro N
    obtain ⟨⟨p, mus, mua⟩, h⟩ := hok N
    exact ⟨p, mus, mua, h⟩
  choose pX mus mua hmc using hmcN
  have hgridsum : ∀ᶠ N in atTop, 0 < ∑ k : Fin (N + 1), w (gridAngle a.small_angle Real.pi N k) * Real.sin (gridAngle a.small_angle Real.pi N k) := by
    have := weights_pos_eventually hwc hsm0 hsm hint (fun _ => 1) (fun _ => one_pos)
    simpa only [one_mul] using this
  set p : ∀ N, Fin (N + 1) → ℝ := fun N k => 1 / (∑ i : Fin (N + 1), w (gridAngle a.small_angle Real.pi N i)) *
    w (gridAngle a.small_angle Real.pi N k) with hp
  have hsumpos : ∀ᶠ N in atTop, 0 < ∑ i : Fin (N + 1), w (gridAngle a.small_angle Real.pi N i) := by
    filter_upwards [hgridsum] with N hN
    refine lt_of_lt_of_le hN (Finset.sum_le_sum fun k _ => ?_)
    have := hw0 (gridAngle a.small_angle Real.pi N k)
    nlinarith [Real.sin_le_one (gridAngle a.small_angle Real.pi N k)]
  set mu : ℕ → ℝ := fun N => 1 / (l (N + 1) * (1 - g (N + 1))) with hmu
  have hcore : ∀ᶠ N in atTop, mcScat E { mc with num_angles := N + 1 } = .ok (fun k => fin (p N k), [fin (mu N)], fin 0) := by
    filter_upwards [hrefl, hsumpos] with N hN hsum
    have hsN : SameSample { a with num_angles := N + 1 } { mc with num_angles := N + 1 } neff :=
      ⟨hs.radius, hs.radius2, hs.n_particle, hs.n_matrix, hs.n_sample, hs.volume_fraction, hs.wavelen, hs.concentration, hs.pdi, hs.types,
        hs.effective_struct, hs.effective_form, hs.fields, hs.smooth, hs.min_angle, rfl⟩
    obtain ⟨n', xe', f', s, -, hsn', hf', -, hmus, hmua, hpk, hfin⟩ := agree_core E hE hsN ha.wavelen hneff hconc hN (hmc N)
    have hnn : n' = n ∧ xe' = xe := by
      have : sampleOf E a = .ok (n', xe') := hsn'
      rw [hsn] at this
      simp only [Except.ok.injEq, Prod.mk.injEq] at this
      exact ⟨this.1.symm, this.2.symm⟩
    obtain ⟨rfl, rfl⟩ := hnn
    have hff : f' = f := by
      have : E.dcs (dcsCall a n' xe') = .ok f' := hf'
      rw [hf] at this
      exact (Except.ok.inj this).symm
    subst hff
    obtain ⟨-, -, hlg⟩ := hfin _ _ rfl rfl
    rw [hmc N]
    have ep : pX N = fun k => fin (p N k) := by
      funext k
      rw [hpk k]
      have eg : ∀ i : Fin (N + 1), Reflection.anglesTot { a with num_angles := N + 1 } i = gridAngle a.small_angle Real.pi N i := by
        intro i
        rw [← linspace_grid]
        simp only [Reflection.anglesTot, zero_add]
      have esum : (∑ i : Fin (N + 1), ((f' (Reflection.anglesTot { a with num_angles := N + 1 } i)).1 +
          (f' (Reflection.anglesTot { a with num_angles := N + 1 } i)).2)) = ∑ i : Fin (N + 1), w (gridAngle a.small_angle Real.pi N i) :=
        Finset.sum_congr rfl fun i _ => by rw [eg i]
      change fin _ / fin (∑ i : Fin (N + 1), _) = _
      rw [esum, fin_div _ hsum.ne', fin_inj, eg k, hp]
      simp only [hw]
      ring
    have emu : mus N = [fin (mu N)] := by
      have hdN : CalcScat.densityOf { mc with num_angles := N + 1 } = fin (rhoOf a) := hdens
      rw [hmus, hdN, fin_mul, hmu]
      congr 2
      have hne : l (N + 1) * (1 - g (N + 1)) ≠ 0 := fun h0 => by
        rw [h0, zero_mul] at hlg
        exact zero_ne_one hlg
      rw [eq_div_iff hne, mul_comm]
      exact hlg
    have ea : mua N = fin 0 := by
      rw [hmua, hn, mul_zero, fin_div _ ha.wavelen.ne', zero_div]
    rw [ep, emu, ea]
  have hl' : Tendsto (fun N => l (N + 1)) atTop (𝓝 (1 / (b.rho * sigmaTotal b * (1 - G)))) := (tendsto_add_atTop_iff_nat 1).mpr hl
  have hg' : Tendsto (fun N => g (N + 1)) atTop (𝓝 G) := (tendsto_add_atTop_iff_nat 1).mpr hg
  have hρσ : 0 < b.rho * sigmaTotal b := mul_pos hset.rho hσ
  have hmulim : Tendsto mu atTop (𝓝 (b.rho * sigmaTotal b)) := by
    have h1 := (hl'.mul (hg'.const_sub 1))
    have e : 1 / (b.rho * sigmaTotal b * (1 - G)) * (1 - G) = 1 / (b.rho * sigmaTotal b) := by
      field_simp
    rw [e] at h1
    have h2 := (tendsto_const_nhds (x := (1 : ℝ))).div h1 (by positivity)
    rw [one_div_one_div] at h2
    exact h2
  have hcosl : Tendsto (fun N => meanOver (p N) a.small_angle Real.cos) atTop (𝓝 G) := by
    rw [eG]
    refine (meanOver_limit hwc hsm0 hsm hint (fun _ => 1) (fun _ => one_pos) Real.cos 1
      (fun x _ => Real.abs_cos_le_one x) (Eventually.of_forall fun x _ => Real.continuous_cos.continuousWithinAt)).congr' ?_
    filter_upwards [hsumpos] with N hN
    unfold meanOver
    simp only [hp, mul_assoc, one_mul, ← Finset.mul_sum]
    rw [mul_div_mul_left _ _ (by positivity)]
  refine ⟨p, mu, fun N => l (N + 1), fun e => 1 / (b.rho * sigmaTotal b) * ∑ i ∈ Finset.range e, G ^ i, 1 / (b.rho * sigmaTotal b * (1 - G)),
    hcore, ?_, hl', ?_, ?_⟩
  · filter_upwards [hrefl] with N hN
    exact ⟨_, hN, rfl⟩
  · intro nevents ang step kn p0 j hkn hang hstep e he
    have lim : Tendsto (fun N => 1 / mu N * ∑ i ∈ Finset.range e, meanOver (p N) a.small_angle Real.cos ^ i) atTop
        (𝓝 (1 / (b.rho * sigmaTotal b) * ∑ i ∈ Finset.range e, G ^ i)) :=
      ((tendsto_const_nhds (x := (1 : ℝ))).div hmulim hρσ.ne').mul (tendsto_finsetSum _ fun i _ => hcosl.pow i)
    refine lim.congr' ?_
    filter_upwards [hang, hstep, hgridsum, hsumpos, hmulim.eventually (lt_mem_nhds hρσ)] with N h1 h2 h3 h4 h5
    have h3' : 0 < ∑ k : Fin (N + 1), p N k * Real.sin (gridAngle a.small_angle Real.pi N k) := by
      simp only [hp, mul_assoc, ← Finset.mul_sum]
      exact mul_pos (by positivity) h3
    have hm := (C108_mean_position P A S V hU nevents (p N) a.small_angle (mu N)
      (fun k => mul_nonneg (by positivity) (hw0 _)) hsm0 hsm h5 h3' (ang N) (step N) h1 h2 kn p0 j hkn _ (fun _ => rfl) e he).2.2
    rw [hm]
    ring
  · have := (hasSum_geometric_of_norm_lt_one (ξ := G) (by rwa [Real.norm_eq_abs])).tendsto_sum_nat
    have h2 := this.const_mul (1 / (b.rho * sigmaTotal b))
    have e : 1 / (b.rho * sigmaTotal b) * (1 - G)⁻¹ = 1 / (b.rho * sigmaTotal b * (1 - G)) := by
      rw [one_div, one_div, mul_inv (b.rho * sigmaTotal b)]
    rw [e] at h2
    exact h2

/-- forward scattering, for the example -/
noncomputable def forwardExt : Ext := { demoExt with dcs := fun _ => .ok fun t => (1 + Real.cos t, 1 + Real.cos t) }

/-- a case of C131: a sample that scatters mostly forward meets the hypotheses, and uniform draws of that shape exist -/
example : IntegFinite forwardExt ∧ SameSample demoRefl demoMC 1 ∧ Sensible demoRefl ∧
    sampleOf forwardExt demoRefl = .ok (1, none) ∧
    forwardExt.dcs (dcsCall demoRefl 1 none) = .ok (fun t => (1 + Real.cos t, 1 + Real.cos t)) ∧
    Setup (transparent forwardExt demoRefl 1 (dcsCall demoRefl 1 none) fun t => (1 + Real.cos t, 1 + Real.cos t)) ∧
    demoRefl.small_angle < Real.pi ∧ demoRefl.n_particle.length = demoRefl.radius.length ∧
    (∀ N, ∃ r, mcScat forwardExt { demoMC with num_angles := N + 1 } = .ok r) ∧
    ∃ (Ω : Type) (_ : MeasurableSpace Ω) (P : Measure Ω) (A : (ℕ × Fin nt) × Fin 2 → Ω → ℝ) (S : ℕ × Fin nt → Ω → ℝ) (V : ℕ → Ω → ℝ),
      IsProbabilityMeasure P ∧ UniformDraws P (Sum.elim A (Sum.elim S V)) := by
  have hπ := Real.pi_pos
  have hrho : 0 < rhoOf demoRefl := by
    have : rhoOf demoRefl = 3 * (1 / 2) / (4 * Real.pi * (max 1 0) ^ 3) := rfl
    rw [this, max_eq_left zero_le_one]; positivity
  have hk : (2 * Real.pi * 1 / (2 * Real.pi) : ℝ) = 1 := by field_simp
  have hint : (∫ t in (0 : ℝ)..Real.pi, (1 + Real.cos t) * Real.sin t) = 2 := by
    have : ∀ t : ℝ, (1 + Real.cos t) * Real.sin t = Real.sin t + Real.sin t * Real.cos t := fun t => by ring
    simp only [this]
    rw [intervalIntegral.integral_add (Real.continuous_sin.intervalIntegrable _ _)
      (Continuous.intervalIntegrable (by fun_prop) _ _), integral_sin, integral_sin_mul_cos₁]
    norm_num
  have hσ : sigmaTotal (transparent forwardExt demoRefl 1 (dcsCall demoRefl 1 none) fun t => (1 + Real.cos t, 1 + Real.cos t)) =
      4 * Real.pi := by
    simp only [sigmaTotal, transparent, demoRefl, Complex.one_re, hk, add_self_div_two, hint]
    ring
  refine ⟨fun _ _ _ _ _ _ _ _ => ⟨0, rfl⟩, ?_, ?_, ?_, rfl, ?_, hπ, rfl, ?_, ?_⟩
  · exact ⟨rfl, rfl, rfl, rfl, rfl, rfl, rfl, rfl, rfl, Or.inl ⟨rfl, rfl, rfl⟩, rfl, rfl, rfl, rfl, rfl, rfl⟩
  · exact ⟨by simp [demoRefl, CalcScat.outer], by simp [demoRefl, CalcScat.outer], by norm_num [demoRefl],
      by simp only [demoRefl]; positivity, fun c hc => by simp [demoRefl] at hc⟩
  · simp only [sampleOf, forwardExt, demoExt, Bind.bind, Except.bind, Pure.pure, Except.pure, demoRefl, if_true]
  · have hc : ContinuousOn (fun t : ℝ => 1 + Real.cos t) (Icc 0 Real.pi) := (continuous_const.add Real.continuous_cos).continuousOn
    refine ⟨one_pos, by simp [transparent], le_rfl, by simp only [transparent, demoRefl]; positivity, le_rfl,
      by simp only [transparent, demoRefl]; linarith, le_rfl, by simp only [transparent, demoRefl]; positivity, le_rfl, hπ.le, hrho, le_rfl,
      fun t => ?_, hc, hc, by rw [hσ]; positivity⟩
    have := Real.neg_one_le_cos t
    exact ⟨by simp only [transparent]; linarith, by simp only [transparent]; linarith⟩
  · intro N
    simp only [mcScat, CalcScat.calcScat, CalcScat.sampleFor, CalcScat.typesFor, CalcScat.phaseFunction, demoMC, demoScat, forwardExt, demoExt,
      Bind.bind, Except.bind, Pure.pure, Except.pure, if_true, lt_irrefl, if_false]
    exact ⟨_, rfl⟩
  · obtain ⟨Ω, i, P, U, hP, hU⟩ := uniformDraws_exist (((ℕ × Fin nt) × Fin 2) ⊕ ((ℕ × Fin nt) ⊕ ℕ))
    refine ⟨Ω, i, P, fun x => U (.inl x), fun x => U (.inr (.inl x)), fun x => U (.inr (.inr x)), hP, ?_⟩
    have : Sum.elim (fun x => U (.inl x)) (Sum.elim (fun x => U (.inr (.inl x))) fun x => U (.inr (.inr x))) = U := by
      funext x
      rcases x with x | x | x <;> rfl
    rw [this]
    exact hU

end Verif.Props
