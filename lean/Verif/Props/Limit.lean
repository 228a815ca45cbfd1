import Verif.Lemmas.Riemann
import Verif.Props.SingleScat2

/-!
# C129: with a fine grid of angles, `reflection` evaluates the integrals of single-scattering theory
-/

namespace Verif.Props
open Verif.SingleScat Verif.XF Verif.Fresnel Verif.Lemmas Verif.Riemann Verif.Spec
open Verif (XF PyErr)
open Verif.Traj (linspace)
open Filter Topology MeasureTheory Set

/-! ### Specification -/

/-- textbook reflectance from index `n1` to `n2` at angle `θ` of incidence, parallel: total beyond the critical angle -/
noncomputable def fresnelP (n1 n2 θ : ℝ) : ℝ :=
  if n2 ≤ n1 * Real.sin θ then 1 else textbookRp n1 n2 θ (Real.arcsin (n1 * Real.sin θ / n2))
/-- the same, perpendicular -/
noncomputable def fresnelS (n1 n2 θ : ℝ) : ℝ :=
  if n2 ≤ n1 * Real.sin θ then 1 else textbookRs n1 n2 θ (Real.arcsin (n1 * Real.sin θ / n2))

/-- the scattering angle inside the sample of light that leaves into the medium at scattering angle `θ` (both between 90 and 180 degrees):
by Snell's law, or 90 degrees if light from the medium cannot come from that side -/
noncomputable def insideAngle (n_medium n_sample θ : ℝ) : ℝ := Real.pi - Real.arcsin (n_medium * Real.sin θ / n_sample)

/-- The quantities of single-scattering theory, as integrals over the scattering angle, for a sample `a`.  `d` is one of the two
dimensionless differential cross sections. -/
noncomputable def sigmaTotal (a : ReflIn) : ℝ :=
  2 * Real.pi / a.k ^ 2 * ∫ α in a.small_angle..Real.pi, ((a.dcs α).1 + (a.dcs α).2) / 2 * Real.sin α
/-- total cross section weighted with the cosine of the scattering angle -/
noncomputable def sigmaCos (a : ReflIn) : ℝ :=
  2 * Real.pi / a.k ^ 2 * ∫ α in a.small_angle..Real.pi, ((a.dcs α).1 + (a.dcs α).2) / 2 * Real.cos α * Real.sin α
/-- cross section for scattering into the detector through the surface, for one polarisation `d` with surface reflectance `R` -/
noncomputable def sigmaDet (a : ReflIn) (d : ℝ → ℝ) (R : ℝ → ℝ → ℝ → ℝ) : ℝ :=
  (a.phi_max - a.phi_min) / a.k ^ 2 *
    ∫ α in (insideAngle a.n_medium a.n_sample a.theta_min)..(insideAngle a.n_medium a.n_sample a.theta_max),
      d α * (1 - R a.n_sample a.n_medium (Real.pi - α)) * Real.sin α

/-- A sample and a detector: positive indices, light from the medium, a detector in the backward half space, non-negative continuous
differential cross sections, and a positive total cross section. -/
structure Setup (a : ReflIn) : Prop where
  medium : 0 < a.n_medium
  sample : 0 < a.n_sample
  inc0 : 0 ≤ a.incident
  inc1 : a.incident ≤ Real.pi / 2
  tmin : Real.pi / 2 ≤ a.theta_min
  tmm : a.theta_min ≤ a.theta_max
  tmax : a.theta_max ≤ Real.pi
  azi : a.phi_min ≤ a.phi_max
  sm0 : 0 ≤ a.small_angle
  sm1 : a.small_angle ≤ Real.pi
  rho : 0 < a.rho
  cabs : 0 ≤ a.cabs
  dcs : ∀ t, 0 ≤ (a.dcs t).1 ∧ 0 ≤ (a.dcs t).2
  cont1 : ContinuousOn (fun t => (a.dcs t).1) (Icc 0 Real.pi)
  cont2 : ContinuousOn (fun t => (a.dcs t).2) (Icc 0 Real.pi)
  scatters : 0 < sigmaTotal a

/-! ### Fresnel -/

private theorem snell_arcsin {n1 n2 θ : ℝ} (h1 : 0 < n1) (h2 : 0 < n2) (h0 : 0 ≤ θ) (hθ : θ ≤ Real.pi / 2) (h : n1 * Real.sin θ < n2) :
    n1 * Real.sin θ = n2 * Real.sin (Real.arcsin (n1 * Real.sin θ / n2)) := by
  have hs : 0 ≤ Real.sin θ := Real.sin_nonneg_of_nonneg_of_le_pi h0 (by linarith [Real.pi_pos])
  have : 0 ≤ n1 * Real.sin θ / n2 := by positivity
  rw [Real.sin_arcsin (by linarith) ((div_le_one h2).mpr h.le)]
  field_simp

private theorem cos_arcsin_pos {n1 n2 θ : ℝ} (h1 : 0 < n1) (h2 : 0 < n2) (h0 : 0 ≤ θ) (hθ : θ ≤ Real.pi / 2) (h : n1 * Real.sin θ < n2) :
    0 < Real.cos (Real.arcsin (n1 * Real.sin θ / n2)) := by
  have hs : 0 ≤ Real.sin θ := Real.sin_nonneg_of_nonneg_of_le_pi h0 (by linarith [Real.pi_pos])
  have e0 : 0 ≤ n1 * Real.sin θ / n2 := by positivity
  have e1 : n1 * Real.sin θ / n2 < 1 := (div_lt_one h2).mpr h
  rw [Real.cos_arcsin]
  exact Real.sqrt_pos.mpr (by nlinarith)

theorem rPar_eq_fresnelP {n1 n2 θ : ℝ} (h1 : 0 < n1) (h2 : 0 < n2) (h0 : 0 ≤ θ) (hθ : θ ≤ Real.pi / 2) :
    rPar n1 n2 θ = fresnelP n1 n2 θ ∧ rPerp n1 n2 θ = fresnelS n1 n2 θ := by
  unfold fresnelP fresnelS
  by_cases hc : n2 ≤ n1 * Real.sin θ
  · rw [if_pos hc, if_pos hc]
    by_cases hm : tirMask n1 n2 θ
    · simp only [rPar, rPerp, if_pos hm, and_self]
    · have hle : ¬ n2 < n1 := fun hlt => hm ((tirMask_iff h1 h2 h0 hθ).2 ⟨hlt, hc⟩)
      have hs1 := Real.sin_le_one θ
      have heq : n1 = n2 := le_antisymm (not_lt.mp hle) (hc.trans (by nlinarith))
      have hsin : Real.sin θ = 1 := by
        rw [heq] at hc
        nlinarith
      have hcos : Real.cos θ = 0 := by
        have := Real.sin_sq_add_cos_sq θ
        rw [hsin] at this
        nlinarith
      have hr : root n1 n2 θ = 0 := by simp [root, hsin, heq]
      simp only [rPar, rPerp, if_neg hm, hr, hcos, mul_zero, ratioSq, add_zero, if_true, and_self]
  · rw [if_neg hc, if_neg hc]
    push Not at hc
    have hm : ¬ tirMask n1 n2 θ := by
      rw [tirMask_iff h1 h2 h0 hθ]; rintro ⟨_, h'⟩; linarith
    have hs := snell_arcsin h1 h2 h0 hθ hc
    have hp := cos_arcsin_pos h1 h2 h0 hθ hc
    have hcos : 0 ≤ Real.cos θ := Real.cos_nonneg_of_mem_Icc ⟨by linarith [Real.pi_pos], hθ⟩
    have ht : IsRefractionAngle (Real.arcsin (n1 * Real.sin θ / n2)) := ⟨Real.neg_pi_div_two_le_arcsin _, Real.arcsin_le_pi_div_two _⟩
    rw [rPar_eq h2 hs ht hm, rPerp_eq h2 hs ht hm, ratioSq_of_pos (by positivity), ratioSq_of_pos (by positivity)]
    exact ⟨rfl, rfl⟩

/-- the reflectances are continuous except at the critical angle -/
private theorem fresnel_cont {n1 n2 θ : ℝ} (h1 : 0 < n1) (h2 : 0 < n2) (h0 : 0 ≤ θ) (hθ : θ ≤ Real.pi / 2) (hne : n1 * Real.sin θ ≠ n2) :
    ContinuousAt (fresnelP n1 n2) θ ∧ ContinuousAt (fresnelS n1 n2) θ := by
  have hcont : Continuous fun θ : ℝ => n1 * Real.sin θ := by fun_prop
  rcases lt_or_gt_of_ne hne with hlt | hgt
  · have hev : ∀ᶠ t in 𝓝 θ, n1 * Real.sin t < n2 := hcont.continuousAt.eventually (gt_mem_nhds hlt)
    have hp := cos_arcsin_pos h1 h2 h0 hθ hlt
    have hcos : 0 ≤ Real.cos θ := Real.cos_nonneg_of_mem_Icc ⟨by linarith [Real.pi_pos], hθ⟩
    have hp1 : n1 * Real.cos (Real.arcsin (n1 * Real.sin θ / n2)) + n2 * Real.cos θ ≠ 0 := by positivity
    have hp2 : n1 * Real.cos θ + n2 * Real.cos (Real.arcsin (n1 * Real.sin θ / n2)) ≠ 0 := by positivity
    have ca : ContinuousAt (fun t => Real.cos (Real.arcsin (n1 * Real.sin t / n2))) θ :=
      (Real.continuous_cos.comp (Real.continuous_arcsin.comp (hcont.div_const n2))).continuousAt
    have cc : ContinuousAt (fun t => Real.cos t) θ := Real.continuous_cos.continuousAt
    constructor
    · have : ContinuousAt (fun t => textbookRp n1 n2 t (Real.arcsin (n1 * Real.sin t / n2))) θ := by
        unfold textbookRp
        exact (((ca.const_mul n1).sub (cc.const_mul n2)).div ((ca.const_mul n1).add (cc.const_mul n2)) hp1).pow 2
      refine this.congr ?_
      filter_upwards [hev] with t ht
      exact (if_neg (not_le.mpr ht)).symm
    · have : ContinuousAt (fun t => textbookRs n1 n2 t (Real.arcsin (n1 * Real.sin t / n2))) θ := by
        unfold textbookRs
        exact (((cc.const_mul n1).sub (ca.const_mul n2)).div ((cc.const_mul n1).add (ca.const_mul n2)) hp2).pow 2
      refine this.congr ?_
      filter_upwards [hev] with t ht
      exact (if_neg (not_le.mpr ht)).symm
  · have hev : ∀ᶠ t in 𝓝 θ, n2 < n1 * Real.sin t := hcont.continuousAt.eventually (lt_mem_nhds hgt)
    constructor <;>
    · refine (continuousAt_const (y := (1 : ℝ))).congr ?_
      filter_upwards [hev] with t ht
      exact (if_pos ht.le).symm

private theorem insideAngle_eq {nm ns t : ℝ} (hs : 0 < ns) : thetaRefracted nm ns t = insideAngle nm ns t := by
  unfold thetaRefracted insideAngle
  simp only
  rw [Real.sin_pi_sub, abs_of_pos hs, mul_comm]
  split_ifs with h
  · rw [Real.arcsin_of_one_le h]; ring
  · rfl

/-! ### Limits of the sums -/

section Limits
variable {a : ReflIn}

private theorem tot_limit (h : Setup a) (w : ℝ → ℝ) (hw : ContinuousOn w (Icc 0 Real.pi)) (d : ℝ → ℝ) (hd : ContinuousOn d (Icc 0 Real.pi)) :
    Tendsto (fun n : ℕ => integrateCS n (fun i => d (anglesTot { a with num := n } i)) (fun i => w (anglesTot { a with num := n } i) / |a.k| ^ 2)
      (anglesTot { a with num := n }) (2 * Real.pi)) atTop
      (𝓝 (2 * Real.pi / a.k ^ 2 * ∫ α in a.small_angle..Real.pi, d α * w α * Real.sin α)) := by
  have hsub : Icc a.small_angle Real.pi ⊆ Icc 0 Real.pi := Icc_subset_Icc_left h.sm0
  have base := trapz_tendsto_of_continuousOn (a := a.small_angle) (b := Real.pi) h.sm1 (f := fun α => d α * w α * Real.sin α)
    (((hd.mono hsub).mul (hw.mono hsub)).mul Real.continuous_sin.continuousOn)
  refine (base.const_mul (2 * Real.pi / a.k ^ 2)).congr fun n => ?_
  unfold integrateCS
  rw [← trapz_const_mul, ← trapz_const_mul]
  have e : ∀ i, anglesTot { a with num := n } i = linspace a.small_angle Real.pi n i := fun i => by simp [anglesTot]
  have e' : anglesTot { a with num := n } = linspace a.small_angle Real.pi n := funext e
  rw [e']
  congr 1
  funext i
  rw [sq_abs]
  ring

private theorem det_limit (h : Setup a) (d : ℝ → ℝ) (hd : ContinuousOn d (Icc 0 Real.pi)) (r R : ℝ → ℝ → ℝ → ℝ)
    (hr : ∀ θ, 0 ≤ θ → θ ≤ Real.pi / 2 → r a.n_sample a.n_medium θ = R a.n_sample a.n_medium θ)
    (hb : ∀ θ, 0 ≤ θ → θ ≤ Real.pi / 2 → 0 ≤ r a.n_sample a.n_medium θ ∧ r a.n_sample a.n_medium θ ≤ 1)
    (hR : ∀ θ, 0 ≤ θ → θ ≤ Real.pi / 2 → a.n_sample * Real.sin θ ≠ a.n_medium → ContinuousAt (R a.n_sample a.n_medium) θ) :
    Tendsto (fun n : ℕ => integrateCS n (fun i => d (angles { a with num := n } i))
      (fun i => (1 - r a.n_sample a.n_medium (Real.pi - angles { a with num := n } i)) / |a.k| ^ 2)
      (angles { a with num := n }) (a.phi_max - a.phi_min)) atTop (𝓝 (sigmaDet a d R)) := by
  have hπ := Real.pi_pos
  set lo := insideAngle a.n_medium a.n_sample a.theta_min with hlo
  set hi := insideAngle a.n_medium a.n_sample a.theta_max with hhi
  have m1 := thetaRefracted_mem h.medium h.sample h.tmin (h.tmm.trans h.tmax)
  have m2 := thetaRefracted_mem h.medium h.sample (h.tmin.trans h.tmm) h.tmax
  have m3 := thetaRefracted_mono h.medium h.sample h.tmin h.tmm h.tmax
  rw [insideAngle_eq h.sample] at m1 m2
  rw [insideAngle_eq h.sample, insideAngle_eq h.sample] at m3
  have hsub : Icc lo hi ⊆ Icc (Real.pi / 2) Real.pi := Icc_subset_Icc m1.1 m2.2
  have hsub0 : Icc lo hi ⊆ Icc 0 Real.pi := hsub.trans (Icc_subset_Icc_left (by linarith))
  obtain ⟨C, hC⟩ := isCompact_Icc.exists_bound_of_continuousOn hd
  have base := trapz_tendsto m3 (fun α => d α * (1 - R a.n_sample a.n_medium (Real.pi - α)) * Real.sin α) C ?_ ?_
  · refine (base.const_mul ((a.phi_max - a.phi_min) / a.k ^ 2)).congr fun n => ?_
    unfold integrateCS
    have e : angles { a with num := n } = linspace lo hi n := funext fun i => by
      simp only [angles, insideAngle_eq h.sample, hlo, hhi]
    rw [e, ← trapz_const_mul, ← trapz_const_mul]
    refine trapz_congr _ _ _ _ fun i hin => ?_
    have : linspace lo hi n i ∈ Icc (Real.pi / 2) Real.pi := hsub (linspace_mem m3 n i hin)
    simp only [← hlo, ← hhi]
    rw [hr _ (by linarith [this.2]) (by linarith [this.1]), sq_abs]
    ring
  · intro x hx
    have hx' := hsub hx
    have c1 := hC x (hsub0 hx)
    rw [Real.norm_eq_abs] at c1
    have c2 := hb (Real.pi - x) (by linarith [hx'.2]) (by linarith [hx'.1])
    rw [hr _ (by linarith [hx'.2]) (by linarith [hx'.1])] at c2
    have c3 : |1 - R a.n_sample a.n_medium (Real.pi - x)| ≤ 1 := abs_le.mpr ⟨by linarith [c2.2], by linarith [c2.1]⟩
    have c4 := Real.abs_sin_le_one x
    have c0 : 0 ≤ C := (abs_nonneg _).trans c1
    rw [abs_mul, abs_mul]
    calc |d x| * |1 - R a.n_sample a.n_medium (Real.pi - x)| * |Real.sin x| ≤ C * 1 * 1 := by gcongr
      _ = C := by ring
  · -- all but the critical angle
    have hcrit : ∀ᵐ x : ℝ, x ≠ Real.pi - Real.arcsin (a.n_medium / a.n_sample) := by rw [ae_iff]; simp
    filter_upwards [hcrit] with x hxc hx
    have hx' := hsub hx
    have hne : a.n_sample * Real.sin (Real.pi - x) ≠ a.n_medium := by
      intro he
      apply hxc
      have hle : a.n_medium / a.n_sample = Real.sin (Real.pi - x) := by rw [← he]; field_simp [h.sample.ne']
      rw [hle, Real.arcsin_sin (by linarith [hx'.2]) (by linarith [hx'.1])]
      ring
    have hRc := hR (Real.pi - x) (by linarith [hx'.2]) (by linarith [hx'.1]) hne
    have hRc' : ContinuousAt (fun y => R a.n_sample a.n_medium (Real.pi - y)) x :=
      ContinuousAt.comp (g := R a.n_sample a.n_medium) (f := fun y => Real.pi - y) hRc (by fun_prop)
    exact (((hd.mono hsub0) x hx).mul (continuousWithinAt_const.sub hRc'.continuousWithinAt)).mul Real.continuous_sin.continuousWithinAt

end Limits

/-- the share of light that a sample of thickness `L` scatters, with the albedo the code multiplies it with (C56) -/
noncomputable def scatteredShare (a : ReflIn) : Option ℝ → ℝ
  | none => 1
  | some L => (1 - Real.exp (-(a.rho * (sigmaTotal a + a.cabs) * L))) * (sigmaTotal a / (sigmaTotal a + a.cabs))

/-- **C129.**  With a fine enough grid of angles `reflection` returns numbers, and as the grid is refined they converge to the integrals of
single-scattering theory: in each polarisation, the textbook reflectance of the surface plus the light that enters, is scattered towards the
detector and is transmitted by the surface on its way out, relative to what is scattered and absorbed in total; the asymmetry parameter
converges to the mean cosine of the scattering angle and the transport length to `1/(ρ σ (1 - g))`. -/
theorem C129_fine_grid (a : ReflIn) (h : Setup a) (th : Option ℝ) :
    ∃ R P S g l : ℕ → ℝ,
      (∀ᶠ n in atTop, reflection { a with num := n } th = .ok ⟨fin (R n), fin (P n), fin (S n), fin (g n), fin (l n)⟩) ∧
      Tendsto P atTop (𝓝 (fresnelP a.n_medium a.n_sample a.incident + (1 - fresnelP a.n_medium a.n_sample a.incident) *
        (sigmaDet a (fun t => (a.dcs t).1) fresnelP / (sigmaTotal a + a.cabs)) * scatteredShare a th)) ∧
      Tendsto S atTop (𝓝 (fresnelS a.n_medium a.n_sample a.incident + (1 - fresnelS a.n_medium a.n_sample a.incident) *
        (sigmaDet a (fun t => (a.dcs t).2) fresnelS / (sigmaTotal a + a.cabs)) * scatteredShare a th)) ∧
      (∀ n, R n = (P n + S n) / 2) ∧
      Tendsto g atTop (𝓝 (sigmaCos a / sigmaTotal a)) ∧
      Tendsto l atTop (𝓝 (1 / (a.rho * sigmaTotal a * (1 - sigmaCos a / sigmaTotal a)))) := by
  have hπ := Real.pi_pos
  have lim1 := tot_limit h (fun _ => 1) continuousOn_const _ h.cont1
  have lim2 := tot_limit h (fun _ => 1) continuousOn_const _ h.cont2
  have limc1 := tot_limit h (fun t => Real.cos t * 1) (by fun_prop) _ h.cont1
  have limc2 := tot_limit h (fun t => Real.cos t * 1) (by fun_prop) _ h.cont2
  have hsub : Icc a.small_angle Real.pi ⊆ Icc 0 Real.pi := Icc_subset_Icc_left h.sm0
  have ii : ∀ (d w : ℝ → ℝ), ContinuousOn d (Icc 0 Real.pi) → Continuous w →
      IntervalIntegrable (fun α => d α * w α * Real.sin α) volume a.small_angle Real.pi := by
    intro d w hd hw
    refine ContinuousOn.intervalIntegrable ?_
    rw [uIcc_of_le h.sm1]
    exact ((hd.mono hsub).mul hw.continuousOn).mul Real.continuous_sin.continuousOn
  have limσ : Tendsto (fun n : ℕ => cscatTotal { a with num := n }) atTop (𝓝 (sigmaTotal a)) := by
    have e : (2 * Real.pi / a.k ^ 2 * (∫ α in a.small_angle..Real.pi, (a.dcs α).1 * 1 * Real.sin α) +
        2 * Real.pi / a.k ^ 2 * ∫ α in a.small_angle..Real.pi, (a.dcs α).2 * 1 * Real.sin α) / 2 = sigmaTotal a := by
      unfold sigmaTotal
      rw [← mul_add, ← intervalIntegral.integral_add (ii _ _ h.cont1 continuous_const) (ii _ _ h.cont2 continuous_const), mul_div_assoc,
        ← intervalIntegral.integral_div]
      congr 1
      refine intervalIntegral.integral_congr fun x _ => ?_
      ring
    rw [← e]
    exact (lim1.add lim2).div_const 2
  have limcos : Tendsto (fun n : ℕ => asymmetrySum { a with num := n } / 2) atTop (𝓝 (sigmaCos a)) := by
    have e : (2 * Real.pi / a.k ^ 2 * (∫ α in a.small_angle..Real.pi, (a.dcs α).1 * (Real.cos α * 1) * Real.sin α) +
        2 * Real.pi / a.k ^ 2 * ∫ α in a.small_angle..Real.pi, (a.dcs α).2 * (Real.cos α * 1) * Real.sin α) / 2 = sigmaCos a := by
      unfold sigmaCos
      rw [← mul_add, ← intervalIntegral.integral_add (ii _ (fun t => Real.cos t * 1) h.cont1 (by fun_prop))
        (ii _ (fun t => Real.cos t * 1) h.cont2 (by fun_prop)), mul_div_assoc, ← intervalIntegral.integral_div]
      congr 1
      refine intervalIntegral.integral_congr fun x _ => ?_
      ring
    rw [← e]
    exact (limc1.add limc2).div_const 2
  have limP : Tendsto (fun n : ℕ => cscatDetectedPar { a with num := n }) atTop (𝓝 (sigmaDet a (fun t => (a.dcs t).1) fresnelP)) :=
    det_limit h _ h.cont1 rPar fresnelP (fun θ h0 h1 => (rPar_eq_fresnelP h.sample h.medium h0 h1).1)
      (fun θ h0 h1 => rPar_frac h.sample h0 h1) (fun θ h0 h1 hne => (fresnel_cont h.sample h.medium h0 h1 hne).1)
  have limS : Tendsto (fun n : ℕ => cscatDetectedPerp { a with num := n }) atTop (𝓝 (sigmaDet a (fun t => (a.dcs t).2) fresnelS)) :=
    det_limit h _ h.cont2 rPerp fresnelS (fun θ h0 h1 => (rPar_eq_fresnelP h.sample h.medium h0 h1).2)
      (fun θ h0 h1 => rPerp_frac h.sample h0 h1) (fun θ h0 h1 hne => (fresnel_cont h.sample h.medium h0 h1 hne).2)
  have hext : sigmaTotal a + a.cabs ≠ 0 := by have := h.scatters; have := h.cabs; positivity
  have hg1 : sigmaCos a < sigmaTotal a := by
    have hk : a.k ≠ 0 := by
      intro h0
      have := h.scatters
      rw [sigmaTotal, h0] at this
      norm_num at this
    have hk2 : 0 < 2 * Real.pi / a.k ^ 2 := by positivity
    have hs := h.scatters
    unfold sigmaTotal at hs ⊢
    unfold sigmaCos
    rw [mul_lt_mul_iff_right₀ hk2]
    have hpos := (mul_pos_iff_of_pos_left hk2).mp hs
    have i1 : IntervalIntegrable (fun α => ((a.dcs α).1 + (a.dcs α).2) / 2 * Real.sin α) volume a.small_angle Real.pi := by
      refine ((ii _ (fun _ => 1 / 2) h.cont1 continuous_const).add (ii _ (fun _ => 1 / 2) h.cont2 continuous_const)).congr ?_
      intro x _
      simp only [Pi.add_apply]; ring
    have i2 : IntervalIntegrable (fun α => ((a.dcs α).1 + (a.dcs α).2) / 2 * Real.cos α * Real.sin α) volume a.small_angle Real.pi := by
      refine ((ii _ (fun t => Real.cos t / 2) h.cont1 (by fun_prop)).add (ii _ (fun t => Real.cos t / 2) h.cont2 (by fun_prop))).congr ?_
      intro x _
      simp only [Pi.add_apply]; ring
    have hnn : ∀ x ∈ Icc a.small_angle Real.pi, 0 ≤ ((a.dcs x).1 + (a.dcs x).2) / 2 * Real.sin x := fun x hx => by
      have := h.dcs x
      have := Real.sin_nonneg_of_nonneg_of_le_pi (h.sm0.trans hx.1) hx.2
      exact mul_nonneg (by linarith) this
    have hle : ∀ x ∈ Icc a.small_angle Real.pi, ((a.dcs x).1 + (a.dcs x).2) / 2 * Real.cos x * Real.sin x ≤
        ((a.dcs x).1 + (a.dcs x).2) / 2 * Real.sin x := fun x hx => by
      have h1 := hnn x hx
      have h2 := Real.cos_le_one x
      nlinarith
    refine lt_of_le_of_ne (intervalIntegral.integral_mono_on h.sm1 i2 i1 hle) fun heq => hpos.ne' ?_
    have hsubz : ∫ α in a.small_angle..Real.pi, (((a.dcs α).1 + (a.dcs α).2) / 2 * Real.sin α -
        ((a.dcs α).1 + (a.dcs α).2) / 2 * Real.cos α * Real.sin α) = 0 := by
      rw [intervalIntegral.integral_sub i1 i2, heq, sub_self]
    have hae := (intervalIntegral.integral_eq_zero_iff_of_le_of_nonneg_ae h.sm1 (by
      rw [Filter.EventuallyLE, ae_restrict_iff' measurableSet_Ioc]
      refine Eventually.of_forall fun x hx => ?_
      have := hle x ⟨hx.1.le, hx.2⟩
      simp only [Pi.zero_apply]; linarith) (i1.sub i2)).mp hsubz
    rw [Filter.EventuallyEq, ae_restrict_iff' measurableSet_Ioc] at hae
    rw [intervalIntegral.integral_congr_ae (g := fun _ => (0 : ℝ)) ?_]
    · simp
    · rw [uIoc_of_le h.sm1]
      filter_upwards [hae] with x hx hm
      have h1 := hx hm
      simp only [Pi.zero_apply] at h1
      have h2 : ((a.dcs x).1 + (a.dcs x).2) / 2 * Real.sin x * (1 - Real.cos x) = 0 := by linarith
      rcases mul_eq_zero.mp h2 with h3 | h3
      · exact h3
      · have h4 : Real.cos x = 1 := by linarith
        have h5 : 0 < x := lt_of_le_of_lt h.sm0 hm.1
        have h6 := Real.cos_lt_cos_of_nonneg_of_le_pi le_rfl hm.2 h5
        rw [Real.cos_zero] at h6
        linarith
  have hval : ∀ᶠ n in atTop, Valid { a with num := n } := by
    filter_upwards [limσ.eventually (lt_mem_nhds h.scatters)] with n hn
    exact ⟨h.medium, h.sample, h.inc0, h.inc1, h.tmin, h.tmm, h.tmax, h.azi, h.sm0, h.sm1, h.rho, h.cabs, h.dcs, hn⟩
  set A : ℕ → ℝ := fun n => match th with
    | none => 1
    | some L => (1 - Real.exp (-a.rho * (cscatTotal { a with num := n } + a.cabs) * L)) * cscatTotal { a with num := n } /
        (cscatTotal { a with num := n } + a.cabs) with hA
  have limA : Tendsto A atTop (𝓝 (scatteredShare a th)) := by
    rcases th with _ | L
    · exact tendsto_const_nhds
    · simp only [hA, scatteredShare]
      have e1 := (limσ.add_const a.cabs)
      have e2 : Tendsto (fun n => Real.exp (-a.rho * (cscatTotal { a with num := n } + a.cabs) * L)) atTop
          (𝓝 (Real.exp (-(a.rho * (sigmaTotal a + a.cabs) * L)))) := by
        have := (Real.continuous_exp.tendsto _).comp ((e1.const_mul (-a.rho)).mul_const L)
        rw [show -(a.rho * (sigmaTotal a + a.cabs) * L) = -a.rho * (sigmaTotal a + a.cabs) * L by ring]
        exact this
      have := ((e2.const_sub 1).mul limσ).div e1 hext
      rw [mul_div_assoc] at this
      exact this
  set rp := fresnelP a.n_medium a.n_sample a.incident
  set rs := fresnelS a.n_medium a.n_sample a.incident
  have hr := rPar_eq_fresnelP h.medium h.sample h.inc0 h.inc1
  set g : ℕ → ℝ := fun n => asymmetrySum { a with num := n } / cscatTotal { a with num := n } / 2 with hg
  have limg : Tendsto g atTop (𝓝 (sigmaCos a / sigmaTotal a)) := by
    refine (limcos.div limσ h.scatters.ne').congr fun n => ?_
    simp only [hg, Pi.div_apply]; ring
  have hglt : 1 - sigmaCos a / sigmaTotal a ≠ 0 := by
    have : sigmaCos a / sigmaTotal a < 1 := (div_lt_one h.scatters).mpr hg1
    linarith
  refine ⟨fun n => (((1 - rp) * cscatDetectedPar { a with num := n } / (cscatTotal { a with num := n } + a.cabs) * A n + rp) +
      ((1 - rs) * cscatDetectedPerp { a with num := n } / (cscatTotal { a with num := n } + a.cabs) * A n + rs)) / 2,
    fun n => (1 - rp) * cscatDetectedPar { a with num := n } / (cscatTotal { a with num := n } + a.cabs) * A n + rp,
    fun n => (1 - rs) * cscatDetectedPerp { a with num := n } / (cscatTotal { a with num := n } + a.cabs) * A n + rs, g,
    fun n => 1 / (1 - g n) / a.rho / cscatTotal { a with num := n }, ?_, ?_, ?_, fun _ => rfl, limg, ?_⟩
  · filter_upwards [hval, limg.eventually (gt_mem_nhds (by
      exact (div_lt_one h.scatters).mpr hg1 : sigmaCos a / sigmaTotal a < 1))] with n hn hgn
    have hσ := hn.scatters
    have hx : cscatTotal { a with num := n } + a.cabs ≠ 0 := by have := h.cabs; positivity
    have h1g : 1 - g n ≠ 0 := by linarith
    have hatt : attenuation { a with num := n } th = fin (A n) := by
      rcases th with _ | L
      · rfl
      · simp only [attenuation, hA, fin_mul]
        rw [fin_div _ hx]
    rw [reflection_eq _ hn th]
    simp only [hatt, hr.1, hr.2]
    have hasym : fin (asymmetrySum { a with num := n }) / fin (cscatTotal { a with num := n }) / fin 2 = fin (g n) := by
      rw [fin_div _ hσ.ne', fin_div _ two_ne_zero]
    rw [hasym]
    simp only [fin_mul, fin_add, fin_sub]
    rw [fin_div _ hx, fin_div _ hx, fin_div _ h1g, fin_div _ h.rho.ne', fin_div _ hσ.ne']
    simp only [fin_mul, fin_add]
    rw [fin_div _ two_ne_zero]
  · have := (((limP.const_mul (1 - rp)).div (limσ.add_const a.cabs) hext).mul limA).add_const rp
    rw [mul_div_assoc, add_comm] at this
    exact this
  · have := (((limS.const_mul (1 - rs)).div (limσ.add_const a.cabs) hext).mul limA).add_const rs
    rw [mul_div_assoc, add_comm] at this
    exact this
  · have := (((tendsto_const_nhds (x := (1 : ℝ))).div (limg.const_sub 1) hglt).div_const a.rho).div limσ h.scatters.ne'
    have e : 1 / (1 - sigmaCos a / sigmaTotal a) / a.rho / sigmaTotal a = 1 / (a.rho * sigmaTotal a * (1 - sigmaCos a / sigmaTotal a)) := by
      rw [div_div, div_div]
      congr 1; ring
    rw [e] at this
    exact this

/-- Non-vacuity: isotropic scattering in a sample denser than the medium, light at 45 degrees, all backward directions detected (so that part
of the light is totally reflected inside); the total cross section is `4 π / k²`. -/
example : Setup { exampleSample with n_sample := 3 / 2, incident := Real.pi / 4 } ∧
    sigmaTotal { exampleSample with n_sample := 3 / 2, incident := Real.pi / 4 } = 4 * Real.pi := by
  have hπ := Real.pi_pos
  have hσ : sigmaTotal { exampleSample with n_sample := 3 / 2, incident := Real.pi / 4 } = 4 * Real.pi := by
    simp only [sigmaTotal, exampleSample]
    norm_num
    ring
  refine ⟨⟨one_pos, by norm_num, by positivity, by dsimp only; linarith, le_rfl, by simp only [exampleSample]; linarith, le_rfl,
    by simp only [exampleSample]; positivity, le_rfl, hπ.le, one_pos, zero_le_one, fun t => ⟨zero_le_one, zero_le_one⟩, continuousOn_const,
    continuousOn_const, by rw [hσ]; positivity⟩, hσ⟩

end Verif.Props
