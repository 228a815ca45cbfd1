import Verif.Lemmas.Trapz
import Verif.Lemmas.Fresnel
import Verif.Props.Fresnel
import Mathlib.Analysis.SpecialFunctions.Exp

/-!
# C56, C75, C78: what `reflection` returns
-/

namespace Verif.Props
open Verif.SingleScat Verif.XF Verif.Fresnel Verif.Lemmas
open Verif (XF PyErr)
open Verif.Traj (linspace)
open Filter Topology

/-- Valid arguments of `reflection`: positive indices, light from the medium, detector in the backward half space, non-negative
differential cross sections, a sample that scatters. -/
structure Valid (a : ReflIn) : Prop where
  medium : 0 < a.n_medium
  sample : 0 < a.n_sample
  inc0 : 0 ≤ a.incident
  inc1 : a.incident ≤ Real.pi / 2
  tmin : Real.pi / 2 ≤ a.theta_min
  tmm : a.theta_min ≤ a.theta_max
  tmax : a.theta_max ≤ Real.pi
  azi : a.phi_min ≤ a.phi_max
  sm0 : 0 ≤ a.small_angle
  sm1 : a.small_angle ≤ Real.pi
  rho : 0 < a.rho
  cabs : 0 ≤ a.cabs
  dcs : ∀ t, 0 ≤ (a.dcs t).1 ∧ 0 ≤ (a.dcs t).2
  scatters : 0 < cscatTotal a

/-! ### C75: the range of angles integrated over -/

theorem thetaRefracted_mem {nm ns t : ℝ} (hm : 0 < nm) (hs : 0 < ns) (h0 : Real.pi / 2 ≤ t) (h1 : t ≤ Real.pi) :
    Real.pi / 2 ≤ thetaRefracted nm ns t ∧ thetaRefracted nm ns t ≤ Real.pi := by
  have hsin : 0 ≤ Real.sin (Real.pi - t) := Real.sin_nonneg_of_nonneg_of_le_pi (by linarith) (by linarith [Real.pi_pos])
  have h : 0 ≤ Real.sin (Real.pi - t) * nm / |ns| := by positivity
  unfold thetaRefracted
  simp only
  split_ifs
  · constructor <;> linarith [Real.pi_pos]
  · have := Real.arcsin_le_pi_div_two (Real.sin (Real.pi - t) * nm / |ns|)
    have := Real.arcsin_nonneg.mpr h
    constructor <;> linarith

theorem thetaRefracted_mono {nm ns t t' : ℝ} (hm : 0 < nm) (hs : 0 < ns) (h0 : Real.pi / 2 ≤ t) (ht : t ≤ t') (h1 : t' ≤ Real.pi) :
    thetaRefracted nm ns t ≤ thetaRefracted nm ns t' := by
  have hsin : Real.sin (Real.pi - t') ≤ Real.sin (Real.pi - t) :=
    Real.sin_le_sin_of_le_of_le_pi_div_two (by linarith) (by linarith) (by linarith)
  have h : Real.sin (Real.pi - t') * nm / |ns| ≤ Real.sin (Real.pi - t) * nm / |ns| := by gcongr
  have hm' := thetaRefracted_mem hm hs (h0.trans ht) h1
  unfold thetaRefracted at *
  simp only at *
  by_cases c : 1 ≤ Real.sin (Real.pi - t) * nm / |ns|
  · rw [if_pos c]; exact hm'.1
  · rw [if_neg c, if_neg (by linarith)]
    have := Real.monotone_arcsin h
    linarith

/-- C75.  The range of scattering angles integrated over is the one the detector sees: light scattered inside the sample at an angle `α`
beyond 90°, leaving into the medium at the angle `β` given by Snell's law, is in the range if and only if `β` lies between `theta_min`
and `theta_max`. -/
theorem C75_detected_range (a : ReflIn) (h : Valid a) (α β : ℝ) (hα0 : Real.pi / 2 < α) (hα1 : α ≤ Real.pi)
    (hβ0 : Real.pi / 2 ≤ β) (hβ1 : β ≤ Real.pi)
    (snell : a.n_sample * Real.sin (Real.pi - α) = a.n_medium * Real.sin (Real.pi - β)) :
    (thetaRefracted a.n_medium a.n_sample a.theta_min ≤ α ∧ α ≤ thetaRefracted a.n_medium a.n_sample a.theta_max) ↔
    (a.theta_min ≤ β ∧ β ≤ a.theta_max) := by
  have hs := h.sample
  have hm := h.medium
  have hsinα : Real.sin (Real.pi - α) = Real.sin (Real.pi - β) * a.n_medium / |a.n_sample| := by
    rw [abs_of_pos hs]; field_simp; linarith
  have hα : α = Real.pi - Real.arcsin (Real.sin (Real.pi - β) * a.n_medium / |a.n_sample|) := by
    rw [← hsinα, Real.arcsin_sin (by linarith) (by linarith)]; ring
  have hlt : Real.sin (Real.pi - β) * a.n_medium / |a.n_sample| < 1 := by
    rw [← hsinα, ← Real.sin_pi_div_two]
    exact Real.sin_lt_sin_of_lt_of_le_pi_div_two (by linarith) le_rfl (by linarith)
  have hαβ : α = thetaRefracted a.n_medium a.n_sample β := by
    unfold thetaRefracted
    simp only
    rw [if_neg (by linarith)]; exact hα
  -- strict monotonicity at β
  have strict : ∀ t, Real.pi / 2 ≤ t → t ≤ Real.pi → t < β → thetaRefracted a.n_medium a.n_sample t < α := by
    intro t h0 _ htβ
    have hsin : Real.sin (Real.pi - β) < Real.sin (Real.pi - t) :=
      Real.sin_lt_sin_of_lt_of_le_pi_div_two (by linarith) (by linarith) (by linarith)
    have habs : 0 < |a.n_sample| := by positivity
    have h' : Real.sin (Real.pi - β) * a.n_medium / |a.n_sample| < Real.sin (Real.pi - t) * a.n_medium / |a.n_sample| := by gcongr
    have hnn : 0 ≤ Real.sin (Real.pi - β) * a.n_medium / |a.n_sample| :=
      div_nonneg (mul_nonneg (Real.sin_nonneg_of_nonneg_of_le_pi (by linarith) (by linarith)) hm.le) habs.le
    rw [hα]
    unfold thetaRefracted
    simp only
    split_ifs with c
    · rw [← hα]; exact hα0
    · have := Real.strictMonoOn_arcsin ⟨by linarith, hlt.le⟩ ⟨by linarith, by linarith⟩ h'
      linarith
  have strict' : ∀ t, Real.pi / 2 ≤ t → t ≤ Real.pi → β < t → α < thetaRefracted a.n_medium a.n_sample t := by
    intro t h0 h1 htβ
    have hsin : Real.sin (Real.pi - t) < Real.sin (Real.pi - β) :=
      Real.sin_lt_sin_of_lt_of_le_pi_div_two (by linarith) (by linarith) (by linarith)
    have habs : 0 < |a.n_sample| := by positivity
    have h' : Real.sin (Real.pi - t) * a.n_medium / |a.n_sample| < Real.sin (Real.pi - β) * a.n_medium / |a.n_sample| := by gcongr
    have hnn : 0 ≤ Real.sin (Real.pi - t) * a.n_medium / |a.n_sample| :=
      div_nonneg (mul_nonneg (Real.sin_nonneg_of_nonneg_of_le_pi (by linarith) (by linarith)) hm.le) habs.le
    rw [hα]
    unfold thetaRefracted
    simp only
    rw [if_neg (by linarith)]
    have := Real.strictMonoOn_arcsin ⟨by linarith, by linarith⟩ ⟨by linarith, hlt.le⟩ h'
    linarith
  have htm0 : Real.pi / 2 ≤ a.theta_max := h.tmin.trans h.tmm
  have htm1 : a.theta_min ≤ Real.pi := h.tmm.trans h.tmax
  constructor
  · rintro ⟨h1, h2⟩
    constructor
    · by_contra hc
      exact absurd (strict' _ h.tmin htm1 (not_le.mp hc)) (not_lt.mpr h1)
    · by_contra hc
      exact absurd (strict _ htm0 h.tmax (not_le.mp hc)) (not_lt.mpr h2)
  · rintro ⟨h1, h2⟩
    rw [hαβ]
    exact ⟨thetaRefracted_mono hm hs h.tmin h1 hβ1, thetaRefracted_mono hm hs hβ0 h2 h.tmax⟩

/-- every angle integrated over lies in the range, hence in the backward half space -/
theorem angles_mem (a : ReflIn) (h : Valid a) (i : ℕ) (hi : i < a.num) : Real.pi / 2 ≤ angles a i ∧ angles a i ≤ Real.pi := by
  have h1 := thetaRefracted_mem h.medium h.sample h.tmin (h.tmm.trans h.tmax)
  have h2 := thetaRefracted_mem h.medium h.sample (h.tmin.trans h.tmm) h.tmax
  have h3 := thetaRefracted_mono h.medium h.sample h.tmin h.tmm h.tmax
  have := linspace_mem h3 a.num i hi
  exact ⟨h1.1.trans this.1, this.2.trans h2.2⟩

theorem angles_mono (a : ReflIn) (h : Valid a) (i : ℕ) (hi : i + 1 < a.num) : angles a i ≤ angles a (i + 1) :=
  linspace_le (thetaRefracted_mono h.medium h.sample h.tmin h.tmm h.tmax) a.num i hi

theorem cdet_nonneg (a : ReflIn) (h : Valid a) : 0 ≤ cscatDetectedPar a ∧ 0 ≤ cscatDetectedPerp a := by
  have key : ∀ (f : ℕ → ℝ) (T : ℕ → ℝ), (∀ i < a.num, 0 ≤ f i) → (∀ i < a.num, 0 ≤ T i) →
      0 ≤ integrateCS a.num f T (angles a) (a.phi_max - a.phi_min) := by
    intro f T hf hT
    refine mul_nonneg (by linarith [h.azi]) (trapz_nonneg _ _ _ (angles_mono a h) fun i hi => ?_)
    have := angles_mem a h i hi
    exact mul_nonneg (mul_nonneg (hf i hi) (hT i hi)) (Real.sin_nonneg_of_nonneg_of_le_pi (by linarith [Real.pi_pos]) this.2)
  constructor
  · refine key _ _ (fun i _ => (h.dcs _).1) fun i hi => div_nonneg ?_ (by positivity)
    have := angles_mem a h i hi
    linarith [(rPar_frac (n1 := a.n_sample) (n2 := a.n_medium) h.sample (θ := Real.pi - angles a i) (by linarith) (by linarith)).2]
  · refine key _ _ (fun i _ => (h.dcs _).2) fun i hi => div_nonneg ?_ (by positivity)
    have := angles_mem a h i hi
    linarith [(rPerp_frac (n1 := a.n_sample) (n2 := a.n_medium) h.sample (θ := Real.pi - angles a i) (by linarith) (by linarith)).2]

/-- The value of `reflection` for valid arguments. -/
theorem reflection_eq (a : ReflIn) (h : Valid a) (th : Option ℝ) :
    reflection a th = .ok
      (let t1 := 1 - rPar a.n_medium a.n_sample a.incident
       let t2 := 1 - rPerp a.n_medium a.n_sample a.incident
       let asym := fin (asymmetrySum a) / fin (cscatTotal a) / fin 2
       let rp := fin t1 * fin (cscatDetectedPar a) / (fin (cscatTotal a) + fin a.cabs) * attenuation a th + fin (rPar a.n_medium a.n_sample a.incident)
       let rs := fin t2 * fin (cscatDetectedPerp a) / (fin (cscatTotal a) + fin a.cabs) * attenuation a th + fin (rPerp a.n_medium a.n_sample a.incident)
       ⟨(rp + rs) / fin 2, rp, rs, asym, fin 1 / (fin 1 - asym) / fin a.rho / fin (cscatTotal a)⟩) := by
  have e1 := fresnelReflection_eq (n := 1) (fun _ => a.incident) (n1 := a.n_medium) (n2 := a.n_sample) (fun _ => h.inc1)
  have e2 := fresnelReflection_eq (n := a.num) (fun i => Real.pi - angles a i) (n1 := a.n_sample) (n2 := a.n_medium)
    (fun i => by linarith [(angles_mem a h i i.isLt).1])
  simp only [reflection, fresnelTransmission, e1, e2, Bind.bind, Except.bind, Pure.pure, Except.pure, fin_sub]

/-- C75.  For valid arguments `reflection` always returns a result; light incident from inside the sample is refused. -/
theorem C75_no_error (a : ReflIn) (th : Option ℝ) :
    (Valid a → ∃ o, reflection a th = .ok o) ∧ (Real.pi / 2 < a.incident → reflection a th = .error .valueError) := by
  refine ⟨fun h => ⟨_, reflection_eq a h th⟩, fun h => ?_⟩
  have : fresnelReflection (n := 1) a.n_medium a.n_sample (fun _ => fin a.incident) = .error .valueError := by
    unfold fresnelReflection
    rw [if_pos ⟨0, by rw [fin_lt]; exact h⟩]
  simp only [reflection, fresnelTransmission, this, Bind.bind, Except.bind]

/-! ### C56: reflectance -/

/-- C56 (all but the thick limit of absorbing samples).  For every valid sample each polarised reflectance is the Fresnel reflectance `R`
at the angle of incidence plus a scattered part: `S` for a semi-infinite sample, and for thickness `L` the part `S * (w * (1 - exp(-ρ σ L)))`
with the albedo `w` in (0,1], which is 1 if and only if nothing is absorbed, and the extinction cross section σ; the unpolarised
reflectance is the mean of the two. -/
theorem C56_beer_lambert_partial (a : ReflIn) (h : Valid a) :
    ∃ Rp Rs Sp Ss w : ℝ, 0 ≤ Rp ∧ Rp ≤ 1 ∧ 0 ≤ Rs ∧ Rs ≤ 1 ∧ 0 ≤ Sp ∧ 0 ≤ Ss ∧ 0 < w ∧ w ≤ 1 ∧ (w = 1 ↔ a.cabs = 0) ∧
      w * (cscatTotal a + a.cabs) = cscatTotal a ∧
      fresnelReflection (n := 1) a.n_medium a.n_sample (fun _ => fin a.incident) = .ok (fun _ => fin Rp, fun _ => fin Rs) ∧
      Sp * (cscatTotal a + a.cabs) = (1 - Rp) * cscatDetectedPar a ∧ Ss * (cscatTotal a + a.cabs) = (1 - Rs) * cscatDetectedPerp a ∧
      (∃ o, reflection a none = .ok o ∧ o.par = fin (Rp + Sp) ∧ o.perp = fin (Rs + Ss) ∧
        o.reflectance = fin (((Rp + Sp) + (Rs + Ss)) / 2)) ∧
      ∀ L : ℝ, ∃ o, reflection a (some L) = .ok o ∧
        o.par = fin (Rp + Sp * (w * (1 - Real.exp (-(a.rho * (cscatTotal a + a.cabs) * L))))) ∧
        o.perp = fin (Rs + Ss * (w * (1 - Real.exp (-(a.rho * (cscatTotal a + a.cabs) * L))))) ∧
        o.reflectance = fin (((Rp + Sp * (w * (1 - Real.exp (-(a.rho * (cscatTotal a + a.cabs) * L))))) +
          (Rs + Ss * (w * (1 - Real.exp (-(a.rho * (cscatTotal a + a.cabs) * L)))))) / 2) := by
  have hc := h.scatters
  have hb := h.cabs
  have hext : 0 < cscatTotal a + a.cabs := by linarith
  have hp := rPar_frac (n1 := a.n_medium) (n2 := a.n_sample) h.medium h.inc0 h.inc1
  have hs := rPerp_frac (n1 := a.n_medium) (n2 := a.n_sample) h.medium h.inc0 h.inc1
  have hd := cdet_nonneg a h
  refine ⟨rPar a.n_medium a.n_sample a.incident, rPerp a.n_medium a.n_sample a.incident,
    (1 - rPar a.n_medium a.n_sample a.incident) * cscatDetectedPar a / (cscatTotal a + a.cabs),
    (1 - rPerp a.n_medium a.n_sample a.incident) * cscatDetectedPerp a / (cscatTotal a + a.cabs),
    cscatTotal a / (cscatTotal a + a.cabs), hp.1, hp.2, hs.1, hs.2,
    div_nonneg (mul_nonneg (by linarith) hd.1) hext.le, div_nonneg (mul_nonneg (by linarith) hd.2) hext.le, by positivity,
    by rw [div_le_one hext]; linarith, ?_, by field_simp,
    fresnelReflection_eq (n := 1) (fun _ => a.incident) (fun _ => h.inc1), by field_simp, by field_simp, ?_, ?_⟩
  · rw [div_eq_one_iff_eq hext.ne']
    constructor <;> intro h <;> linarith
  · refine ⟨_, reflection_eq a h none, ?_, ?_, ?_⟩ <;>
    simp only [attenuation, fin_mul, fin_add, fin_div _ hext.ne', fin_div _ (two_ne_zero' ℝ), fin_inj] <;> ring
  · intro L
    refine ⟨_, reflection_eq a h (some L), ?_, ?_, ?_⟩ <;>
    simp only [attenuation, fin_mul, fin_add, fin_div _ hext.ne', fin_div _ (two_ne_zero' ℝ), fin_inj] <;>
    rw [show -(a.rho * (cscatTotal a + a.cabs) * L) = -a.rho * (cscatTotal a + a.cabs) * L by ring] <;> ring

/-- C56.  An infinitely thin sample reflects what the surface reflects; the reflectance grows with the thickness, never exceeds that of
the semi-infinite sample, and tends to a limit as the thickness grows. If the sample does not absorb, the limit is the reflectance of
the semi-infinite sample. -/
theorem C56_thickness_partial (a : ReflIn) (h : Valid a) :
    ∃ (R : ℝ → ℝ) (Rinf lim : ℝ), (∀ L, ∃ o, reflection a (some L) = .ok o ∧ o.reflectance = fin (R L)) ∧
      (∃ o, reflection a none = .ok o ∧ o.reflectance = fin Rinf) ∧
      (∃ rp rs, fresnelReflection (n := 1) a.n_medium a.n_sample (fun _ => fin a.incident) = .ok (fun _ => fin rp, fun _ => fin rs) ∧
        R 0 = (rp + rs) / 2) ∧
      Monotone R ∧ (∀ L, R L ≤ Rinf) ∧ Tendsto R atTop (𝓝 lim) ∧ (a.cabs = 0 → lim = Rinf) := by
  obtain ⟨Rp, Rs, Sp, Ss, w, h1, h2, h3, h4, h5, h6, h7, h8, h9, h10, h11, _, _, h12, h13⟩ := C56_beer_lambert_partial a h
  have hext : 0 < a.rho * (cscatTotal a + a.cabs) := mul_pos h.rho (by linarith [h.scatters, h.cabs])
  refine ⟨fun L => ((Rp + Sp * (w * (1 - Real.exp (-(a.rho * (cscatTotal a + a.cabs) * L))))) +
          (Rs + Ss * (w * (1 - Real.exp (-(a.rho * (cscatTotal a + a.cabs) * L)))))) / 2, ((Rp + Sp) + (Rs + Ss)) / 2,
    ((Rp + Sp * (w * (1 - 0))) + (Rs + Ss * (w * (1 - 0)))) / 2,
    fun L => ?_, ?_, ⟨Rp, Rs, h11, by simp⟩, ?_, ?_, ?_, ?_⟩
  · obtain ⟨o, ho, _, _, hr⟩ := h13 L; exact ⟨o, ho, hr⟩
  · obtain ⟨o, ho, _, _, hr⟩ := h12; exact ⟨o, ho, hr⟩
  · intro L L' hL
    have : Real.exp (-(a.rho * (cscatTotal a + a.cabs) * L')) ≤ Real.exp (-(a.rho * (cscatTotal a + a.cabs) * L)) := by
      apply Real.exp_le_exp.mpr; nlinarith
    have hw : w * (1 - Real.exp (-(a.rho * (cscatTotal a + a.cabs) * L))) ≤ w * (1 - Real.exp (-(a.rho * (cscatTotal a + a.cabs) * L'))) :=
      mul_le_mul_of_nonneg_left (by linarith) h7.le
    have e1 := mul_le_mul_of_nonneg_left hw h5
    have e2 := mul_le_mul_of_nonneg_left hw h6
    simp only
    linarith
  · intro L
    have := Real.exp_pos (-(a.rho * (cscatTotal a + a.cabs) * L))
    have hw : w * (1 - Real.exp (-(a.rho * (cscatTotal a + a.cabs) * L))) ≤ 1 := by nlinarith
    have e1 := mul_le_mul_of_nonneg_left hw h5
    have e2 := mul_le_mul_of_nonneg_left hw h6
    simp only
    linarith
  · have ht : Tendsto (fun L => Real.exp (-(a.rho * (cscatTotal a + a.cabs) * L))) atTop (𝓝 0) :=
      Real.tendsto_exp_neg_atTop_nhds_zero.comp (tendsto_id.const_mul_atTop hext)
    have hw : Tendsto (fun L => w * (1 - Real.exp (-(a.rho * (cscatTotal a + a.cabs) * L)))) atTop (𝓝 (w * (1 - 0))) :=
      (tendsto_const_nhds.sub ht).const_mul w
    exact (((hw.const_mul Sp).const_add Rp).add ((hw.const_mul Ss).const_add Rs)).div_const 2
  · intro h0
    rw [h9.mpr h0]; ring

/-- C56, refuted for absorbing samples: the albedo is counted twice for a sample of finite thickness, so as the thickness grows the
reflectance does not tend to that of the semi-infinite sample: the scattered part of the limit is the albedo times that of the
semi-infinite sample. -/
theorem C56_thick_limit_refuted (a : ReflIn) (h : Valid a) (habs : 0 < a.cabs) (hdet : 0 < cscatDetectedPar a)
    (hns : rPar a.n_medium a.n_sample a.incident < 1) (R : ℝ → ℝ) (Rinf : ℝ)
    (hR : ∀ L, ∃ o, reflection a (some L) = .ok o ∧ o.par = fin (R L)) (hinf : ∃ o, reflection a none = .ok o ∧ o.par = fin Rinf) :
    ¬ Tendsto R atTop (𝓝 Rinf) := by
  obtain ⟨Rp, Rs, Sp, Ss, w, h1, h2, h3, h4, h5, h6, h7, h8, h9, h10, h11, hSp, _, h12, h13⟩ := C56_beer_lambert_partial a h
  have hext' : 0 < cscatTotal a + a.cabs := by linarith [h.scatters]
  have hext : 0 < a.rho * (cscatTotal a + a.cabs) := mul_pos h.rho hext'
  have hw1 : w < 1 := lt_of_le_of_ne h8 fun hw => habs.ne' (h9.mp hw)
  have hRp : Rp = rPar a.n_medium a.n_sample a.incident := by
    rw [fresnelReflection_eq (n := 1) (fun _ => a.incident) (fun _ => h.inc1)] at h11
    have := congrFun (congrArg Prod.fst (Except.ok.inj h11)) 0
    exact (XF.fin.inj this).symm
  have hSpos : 0 < Sp := by
    by_contra hc
    have : Sp = 0 := le_antisymm (not_lt.mp hc) h5
    rw [this, zero_mul] at hSp
    have := mul_pos (by rw [hRp]; linarith : 0 < 1 - Rp) hdet
    linarith
  have hRL : R = fun L => Rp + Sp * (w * (1 - Real.exp (-(a.rho * (cscatTotal a + a.cabs) * L)))) := by
    funext L
    obtain ⟨o, ho, hr⟩ := hR L
    obtain ⟨o', ho', hr', _⟩ := h13 L
    rw [ho] at ho'
    rw [Except.ok.inj ho', hr'] at hr
    exact (XF.fin.inj hr).symm
  have hRi : Rinf = Rp + Sp := by
    obtain ⟨o, ho, hr⟩ := hinf
    obtain ⟨o', ho', hr', _⟩ := h12
    rw [ho] at ho'
    rw [Except.ok.inj ho', hr'] at hr
    exact (XF.fin.inj hr).symm
  intro hlim
  have ht : Tendsto (fun L => Real.exp (-(a.rho * (cscatTotal a + a.cabs) * L))) atTop (𝓝 0) :=
    Real.tendsto_exp_neg_atTop_nhds_zero.comp (tendsto_id.const_mul_atTop hext)
  have hl : Tendsto R atTop (𝓝 (Rp + Sp * (w * (1 - 0)))) := by
    rw [hRL]
    exact (((tendsto_const_nhds.sub ht).const_mul w).const_mul Sp).const_add Rp
  have := tendsto_nhds_unique hlim hl
  rw [hRi] at this
  nlinarith

/-- An isotropically scattering, absorbing sample of index 1 in air, on three angles. -/
noncomputable def exampleSample : ReflIn :=
  { n_medium := 1, n_sample := 1, incident := 0, theta_min := Real.pi / 2, theta_max := Real.pi, phi_min := 0, phi_max := 2 * Real.pi,
    small_angle := 0, num := 3, k := 1, rho := 1, cabs := 1, dcs := fun _ => (1, 1) }

/-- Non-vacuity of C56, C75 and C78. -/
theorem exampleSample_valid : Valid exampleSample := by
  have hπ := Real.pi_pos
  refine ⟨one_pos, one_pos, le_rfl, by simp only [exampleSample]; positivity, le_rfl, by simp only [exampleSample]; linarith, le_rfl,
    by simp only [exampleSample]; positivity, le_rfl, hπ.le, one_pos, zero_le_one, fun t => ⟨zero_le_one, zero_le_one⟩, ?_⟩
  have h : Real.sin (1 * (Real.pi / (3 - 1))) = 1 := by
    rw [show 1 * (Real.pi / (3 - 1)) = Real.pi / 2 by ring, Real.sin_pi_div_two]
  simp [cscatTotal, integrateCS, trapz, anglesTot, linspace, exampleSample, Finset.sum_range_succ]
  have h1 : Real.sin (Real.pi / (3 - 1)) = 1 := by simpa using h
  have h2 : Real.sin ((1 + 1) * (Real.pi / (3 - 1))) = 0 := by
    rw [show (1 + 1) * (Real.pi / (3 - 1)) = Real.pi by ring, Real.sin_pi]
  rw [h1, h2]
  have : (1 + 1) * (Real.pi / (3 - 1)) - Real.pi / (3 - 1) = Real.pi / 2 := by ring
  rw [this, show Real.pi / (3 - 1) = Real.pi / 2 by ring]
  positivity

/-- Non-vacuity of C56_thick_limit_refuted. -/
example : 0 < exampleSample.cabs ∧ 0 < cscatDetectedPar exampleSample ∧
    rPar exampleSample.n_medium exampleSample.n_sample exampleSample.incident < 1 := by
  have hπ := Real.pi_pos
  have hv := exampleSample_valid
  refine ⟨one_pos, ?_, ?_⟩
  · have r0 : thetaRefracted 1 1 (Real.pi / 2) = Real.pi / 2 := by
      unfold thetaRefracted
      simp [show Real.pi - Real.pi / 2 = Real.pi / 2 by ring]
    have r1 : thetaRefracted 1 1 Real.pi = Real.pi := by simp [thetaRefracted]
    have a0 : angles exampleSample 0 = Real.pi / 2 := by simp [angles, exampleSample, linspace, r0]
    have a1 : angles exampleSample 1 = Real.pi - Real.pi / 4 := by simp [angles, exampleSample, linspace, r0, r1]; ring
    have a2 : angles exampleSample 2 = Real.pi := by simp [angles, exampleSample, linspace, r0, r1]; ring
    have m0 := rPar_frac (n1 := 1) (n2 := 1) one_pos (θ := Real.pi / 2) (by positivity) le_rfl
    have m1 := rMean_same (n := 1) one_pos (θ := Real.pi / 4) (by positivity) (by linarith)
    have s1 : 0 < Real.sin (Real.pi / 4) := Real.sin_pos_of_pos_of_lt_pi (by positivity) (by linarith)
    have e : cscatDetectedPar exampleSample = 2 * Real.pi *
        ((Real.pi / 4) * ((1 - rPar 1 1 (Real.pi / 2)) + Real.sin (Real.pi / 4)) / 2 + (Real.pi / 4) * Real.sin (Real.pi / 4) / 2) := by
      unfold cscatDetectedPar integrateCS trapz
      rw [show exampleSample.num - 1 = 2 from rfl, Finset.sum_range_succ, Finset.sum_range_one]
      simp only [zero_add, show (1:ℕ) + 1 = 2 from rfl, a0, a1, a2, show exampleSample.k = 1 from rfl,
        show exampleSample.n_sample = 1 from rfl, show exampleSample.n_medium = 1 from rfl,
        show exampleSample.phi_max = 2 * Real.pi from rfl, show exampleSample.phi_min = 0 from rfl,
        show ∀ t, exampleSample.dcs t = (1, 1) from fun _ => rfl, Real.sin_pi, Real.sin_pi_sub, sub_sub_cancel, m1.1, Real.sin_pi_div_two,
        show Real.pi - Real.pi / 2 = Real.pi / 2 by ring]
      rw [abs_one]
      ring
    rw [e]
    have : 0 ≤ 1 - rPar 1 1 (Real.pi / 2) := by linarith [m0.2]
    positivity
  · have := rMean_same (n := 1) one_pos (θ := 0) le_rfl (by positivity)
    simp only [exampleSample, this.1]; exact one_pos

/-! ### C78: the asymmetry parameter and the transport length -/

/-- C78.  For every sample that scatters, whatever its differential cross section, the asymmetry parameter lies strictly between -1 and 1,
and the transport length is positive, at least half the scattering length, and the inverse of number density times transport cross
section. -/
theorem C78_asymmetry (a : ReflIn) (h : Valid a) (th : Option ℝ) :
    ∃ (o : ReflOut) (g l : ℝ), reflection a th = .ok o ∧ o.asymmetry = fin g ∧ o.transport_length = fin l ∧ -1 < g ∧ g < 1 ∧ 0 < l ∧
      1 / (a.rho * cscatTotal a) / 2 < l ∧ l * (a.rho * transportCscat a) = 1 ∧ transportCscat a = (1 - g) * cscatTotal a := by
  have hc := h.scatters
  have hr := h.rho
  -- grid
  have hgrid : ∀ i, i + 1 < a.num → anglesTot a i ≤ anglesTot a (i + 1) := fun i hi =>
    linspace_le (by linarith [h.sm1]) a.num i hi
  have hmem : ∀ i < a.num, 0 ≤ anglesTot a i ∧ anglesTot a i ≤ Real.pi := fun i hi => by
    have := linspace_mem (a := 0 + a.small_angle) (b := Real.pi) (by linarith [h.sm1]) a.num i hi
    exact ⟨by linarith [h.sm0, this.1, show linspace (0 + a.small_angle) Real.pi a.num i = anglesTot a i from rfl], this.2⟩
  set y : ℕ → ℝ := fun i => ((a.dcs (anglesTot a i)).1 + (a.dcs (anglesTot a i)).2) * (1 / |a.k| ^ 2) * Real.sin (anglesTot a i) with hy
  have hy0 : ∀ i < a.num, 0 ≤ y i := fun i hi => by
    have := h.dcs (anglesTot a i)
    exact mul_nonneg (mul_nonneg (by linarith) (by positivity)) (Real.sin_nonneg_of_nonneg_of_le_pi (hmem i hi).1 (hmem i hi).2)
  have comb : ∀ w : ℕ → ℝ, integrateCS a.num (fun i => (a.dcs (anglesTot a i)).1) (fun i => w i * 1 / |a.k| ^ 2) (anglesTot a) (2 * Real.pi) +
      integrateCS a.num (fun i => (a.dcs (anglesTot a i)).2) (fun i => w i * 1 / |a.k| ^ 2) (anglesTot a) (2 * Real.pi) =
      2 * Real.pi * trapz a.num (fun i => y i * w i) (anglesTot a) := by
    intro w
    unfold integrateCS
    rw [← mul_add, ← trapz_add]
    congr 2
    funext i
    rw [hy]; ring
  have e0 : cscatTotal a = Real.pi * trapz a.num y (anglesTot a) := by
    have := comb fun _ => 1
    simp only [mul_one] at this
    unfold cscatTotal
    rw [this]; ring
  have e1 : asymmetrySum a = 2 * Real.pi * trapz a.num (fun i => y i * Real.cos (anglesTot a i)) (anglesTot a) := comb _
  have e2 : transportCscat a = Real.pi * trapz a.num (fun i => y i * (1 - Real.cos (anglesTot a i))) (anglesTot a) := by
    unfold transportCscat
    rw [comb fun i => 1 - Real.cos (anglesTot a i)]; ring
  have e3 : trapz a.num (fun i => y i * (1 - Real.cos (anglesTot a i))) (anglesTot a) =
      trapz a.num y (anglesTot a) - trapz a.num (fun i => y i * Real.cos (anglesTot a i)) (anglesTot a) := by
    have := trapz_add a.num (fun i => y i * (1 - Real.cos (anglesTot a i))) (fun i => y i * Real.cos (anglesTot a i)) (anglesTot a)
    have e : (fun i => y i * (1 - Real.cos (anglesTot a i)) + y i * Real.cos (anglesTot a i)) = y := by funext i; ring
    rw [e] at this
    linarith
  have e4 : trapz a.num (fun i => y i * (1 + Real.cos (anglesTot a i))) (anglesTot a) =
      trapz a.num y (anglesTot a) + trapz a.num (fun i => y i * Real.cos (anglesTot a i)) (anglesTot a) := by
    rw [← trapz_add]
    congr 1
    funext i; ring
  have hT : 0 < trapz a.num y (anglesTot a) := by
    rw [e0] at hc
    exact (mul_pos_iff_of_pos_left Real.pi_pos).mp hc
  have hsin : ∀ i < a.num, 0 < y i → 0 < Real.sin (anglesTot a i) := by
    intro i hi hyi
    rcases lt_or_eq_of_le (Real.sin_nonneg_of_nonneg_of_le_pi (hmem i hi).1 (hmem i hi).2) with h' | h'
    · exact h'
    · rw [hy] at hyi; simp only [← h', mul_zero, lt_irrefl] at hyi
  have hcos : ∀ i < a.num, 0 < y i → Real.cos (anglesTot a i) < 1 ∧ -1 < Real.cos (anglesTot a i) := by
    intro i hi hyi
    have h1 := hsin i hi hyi
    have h2 := Real.sin_sq_add_cos_sq (anglesTot a i)
    constructor <;> nlinarith
  have p1 := trapz_weight_pos a.num y (fun i => 1 - Real.cos (anglesTot a i)) (anglesTot a) hgrid hy0
    (fun i _ => by linarith [Real.cos_le_one (anglesTot a i)]) (fun i hi hyi => by linarith [(hcos i hi hyi).1]) hT
  have p2 := trapz_weight_pos a.num y (fun i => 1 + Real.cos (anglesTot a i)) (anglesTot a) hgrid hy0
    (fun i _ => by linarith [Real.neg_one_le_cos (anglesTot a i)]) (fun i hi hyi => by linarith [(hcos i hi hyi).2]) hT
  rw [e3] at p1
  rw [e4] at p2
  set T := trapz a.num y (anglesTot a)
  set C := trapz a.num (fun i => y i * Real.cos (anglesTot a i)) (anglesTot a)
  have hπ := Real.pi_pos
  have hg : asymmetrySum a / cscatTotal a / 2 = C / T := by rw [e0, e1]; field_simp
  have g1 : C / T < 1 := by rw [div_lt_one hT]; linarith
  have g2 : -1 < C / T := by rw [lt_div_iff₀ hT]; linarith
  have g3 : 1 - C / T ≠ 0 := by linarith
  refine ⟨_, C / T, 1 / (1 - C / T) / a.rho / cscatTotal a, reflection_eq a h th, ?_, ?_, g2, g1, ?_, ?_, ?_, ?_⟩
  · simp only [fin_div _ hc.ne', fin_div _ (two_ne_zero' ℝ), hg]
  · simp only [fin_div _ hc.ne', fin_div _ (two_ne_zero' ℝ), hg, fin_sub, fin_div _ g3, fin_div _ hr.ne']
  · have : 0 < 1 - C / T := by linarith
    positivity
  · rw [div_div, div_div, div_div, ]
    apply one_div_lt_one_div_of_lt
    · have : 0 < 1 - C / T := by linarith
      positivity
    · have : 0 < a.rho * cscatTotal a := by positivity
      nlinarith
  · rw [e2, e3, e0]
    field_simp
  · rw [e2, e3, e0]
    field_simp

/-- A sample of index 3/2 in air, lit at 30°, scattering twice as much parallel as perpendicular light, seen from 120° to 150°. -/
noncomputable def glassSample : ReflIn :=
  { exampleSample with n_sample := 3/2, incident := Real.pi / 6, theta_min := 2 * Real.pi / 3, theta_max := 5 * Real.pi / 6,
                       cabs := 1/10, dcs := fun _ => (2, 1) }

theorem glassSample_valid : Valid glassSample := by
  have hπ := Real.pi_pos
  refine ⟨one_pos, by norm_num [glassSample], by simp only [glassSample]; positivity, by simp only [glassSample]; linarith,
    by simp only [glassSample]; linarith, by simp only [glassSample]; linarith, by simp only [glassSample]; linarith,
    by simp only [glassSample, exampleSample]; positivity, le_rfl, hπ.le, one_pos, by norm_num [glassSample],
    fun t => ⟨by norm_num [glassSample], by norm_num [glassSample]⟩, ?_⟩
  have h := exampleSample_valid.scatters
  have e : cscatTotal glassSample = 3 / 2 * cscatTotal exampleSample := by
    simp only [cscatTotal, integrateCS, trapz, anglesTot, linspace, glassSample, exampleSample, Finset.sum_range_succ,
      Finset.sum_range_zero]
    simp
    ring
  rw [e]; positivity

/-- Non-vacuity of C75_detected_range with refraction: light leaving at 150° (30° from the normal) from a sample of index 3/2 was scattered
at the angle whose sine is 1/3. -/
example : Valid glassSample ∧ Real.pi / 2 < Real.pi - Real.arcsin (1 / 3) ∧
    glassSample.n_sample * Real.sin (Real.pi - (Real.pi - Real.arcsin (1 / 3))) =
      glassSample.n_medium * Real.sin (Real.pi - 5 * Real.pi / 6) := by
  refine ⟨glassSample_valid, ?_, ?_⟩
  · have := Real.arcsin_lt_pi_div_two.mpr (show (1:ℝ)/3 < 1 by norm_num)
    linarith
  · rw [sub_sub_cancel, Real.sin_arcsin (by norm_num) (by norm_num), show Real.pi - 5 * Real.pi / 6 = Real.pi / 6 by ring, Real.sin_pi_div_six]
    norm_num [glassSample, exampleSample]

end Verif.Props
