import Verif.Model.Rough
import Verif.Props.Init2
import Mathlib.MeasureTheory.Integral.IntervalIntegral.FundThmCalculus
import Mathlib.Analysis.SpecialFunctions.Trigonometric.ArctanDeriv
import Mathlib.Analysis.SpecialFunctions.Exp
import Mathlib.Analysis.SpecialFunctions.ExpDeriv
import Mathlib.Analysis.Real.Pi.Bounds
import Mathlib.Algebra.BigOperators.Field

/-!
# C90: the slopes of a coarse surface
-/

namespace Verif.Props
open Verif.Rough Verif.Init Verif.Spec Verif.XF Verif.Geometry
open Verif (XF PyErr)
open Verif.Traj (linspace choiceOk Drawn)

variable {nt : ℕ}

/-- Specification: the density of the angle of a slope whose two components are independent normal variables of variance `r^2`
(the slope itself is `tan`). -/
noncomputable def slopeDensity (r a : ℝ) : ℝ := Real.sin a / (r ^ 2 * Real.cos a ^ 3) * Real.exp (-(Real.tan a ^ 2 / (2 * r ^ 2)))

theorem pThetaA_eq {a r : ℝ} (hr : 0 < r) (hc : 0 < Real.cos a) : pThetaA a r = fin (slopeDensity r a) := by
  unfold pThetaA slopeDensity
  have h2 : r ^ 2 ≠ 0 := by positivity
  have h3 : Real.cos a ^ 3 ≠ 0 := by positivity
  have h4 : 2 * r ^ 2 ≠ 0 := by positivity
  simp only [fin_div _ h2, fin_div _ h3, fin_neg, fin_div _ h4, Rough.exp, fin_mul, fin_inj]
  rw [div_div, neg_div]

theorem slope_deriv {r a : ℝ} (hr : 0 < r) (hc : 0 < Real.cos a) :
    HasDerivAt (fun x => -Real.exp (-(Real.tan x ^ 2 / (2 * r ^ 2)))) (slopeDensity r a) a := by
  have ht := Real.hasDerivAt_tan hc.ne'
  have h := (((ht.pow 2).div_const (2 * r ^ 2)).neg.exp).neg
  refine h.congr_deriv ?_
  unfold slopeDensity
  have := hc.ne'
  have := hr.ne'
  simp only [Pi.neg_apply, Pi.pow_apply]
  rw [show Real.sin a / (r ^ 2 * Real.cos a ^ 3) = Real.tan a / (r ^ 2 * Real.cos a ^ 2) by
    rw [Real.tan_eq_sin_div_cos]; field_simp]
  norm_num
  field_simp

theorem slope_sq_deriv {r a : ℝ} (hr : 0 < r) (hc : 0 < Real.cos a) :
    HasDerivAt (fun x => -((Real.tan x ^ 2 + 2 * r ^ 2) * Real.exp (-(Real.tan x ^ 2 / (2 * r ^ 2)))))
      (Real.tan a ^ 2 * slopeDensity r a) a := by
  have ht := Real.hasDerivAt_tan hc.ne'
  have h := (((ht.pow 2).add_const (2 * r ^ 2)).mul (((ht.pow 2).div_const (2 * r ^ 2)).neg.exp)).neg
  refine h.congr_deriv ?_
  unfold slopeDensity
  have := hc.ne'
  have := hr.ne'
  simp only [Pi.neg_apply, Pi.pow_apply]
  rw [show Real.sin a / (r ^ 2 * Real.cos a ^ 3) = Real.tan a / (r ^ 2 * Real.cos a ^ 2) by
    rw [Real.tan_eq_sin_div_cos]; field_simp]
  norm_num
  field_simp
  ring

theorem slopeDensity_cont {r x : ℝ} (hr : 0 < r) (h0 : 0 ≤ x) (h1 : x < Real.pi / 2) :
    ContinuousOn (slopeDensity r) (Set.uIcc 0 x) := by
  intro a ha
  rw [Set.uIcc_of_le h0] at ha
  have hc : 0 < Real.cos a := Real.cos_pos_of_mem_Ioo ⟨by linarith [ha.1, Real.pi_pos], by linarith [ha.2]⟩
  have ht : ContinuousAt Real.tan a := Real.continuousAt_tan.2 hc.ne'
  unfold slopeDensity
  apply ContinuousAt.continuousWithinAt
  apply ContinuousAt.mul
  · apply ContinuousAt.div
    · exact Real.continuous_sin.continuousAt
    · exact (continuous_const.mul (Real.continuous_cos.pow 3)).continuousAt
    · positivity
  · exact Real.continuous_exp.continuousAt.comp ((ht.pow 2).div_const _).neg

/-- C90: the density used for the slopes.  For every roughness `r > 0` the value of `P_theta_a` at an angle below 90 degrees is a
non-negative number, positive except at 0; the light hits a slope of at most `x` with probability `1 - exp(-tan(x)^2/(2 r^2))`. -/
theorem C90_slope_density {r : ℝ} (hr : 0 < r) {x : ℝ} (h0 : 0 ≤ x) (h1 : x < Real.pi / 2) :
    (∃ p, pThetaA x r = fin p ∧ 0 ≤ p ∧ (0 < x → 0 < p)) ∧
    ∃ f : ℝ → ℝ, (∀ a, 0 ≤ a → a < Real.pi / 2 → pThetaA a r = fin (f a)) ∧
      ∫ a in (0:ℝ)..x, f a = 1 - Real.exp (-(Real.tan x ^ 2 / (2 * r ^ 2))) := by
  have hcos : ∀ a, 0 ≤ a → a < Real.pi / 2 → 0 < Real.cos a := fun a h h' =>
    Real.cos_pos_of_mem_Ioo ⟨by linarith [Real.pi_pos], h'⟩
  refine ⟨⟨_, pThetaA_eq hr (hcos x h0 h1), ?_, fun hx => ?_⟩, slopeDensity r, fun a ha ha' => pThetaA_eq hr (hcos a ha ha'), ?_⟩
  · have := hcos x h0 h1
    have := Real.sin_nonneg_of_nonneg_of_le_pi h0 (by linarith [Real.pi_pos])
    unfold slopeDensity; positivity
  · have := hcos x h0 h1
    have := Real.sin_pos_of_pos_of_lt_pi hx (by linarith [Real.pi_pos])
    unfold slopeDensity; positivity
  · rw [intervalIntegral.integral_eq_sub_of_hasDerivAt (f := fun x => -Real.exp (-(Real.tan x ^ 2 / (2 * r ^ 2))))]
    · simp; ring
    · intro a ha
      rw [Set.uIcc_of_le h0] at ha
      exact slope_deriv hr (hcos a ha.1 (by linarith [ha.2]))
    · exact (slopeDensity_cont hr h0 h1).intervalIntegrable

/-- the integral of the squared slope over the angles up to `x` -/
theorem slope_sq_integral {r x : ℝ} (hr : 0 < r) (h0 : 0 ≤ x) (h1 : x < Real.pi / 2) :
    ∫ a in (0:ℝ)..x, Real.tan a ^ 2 * slopeDensity r a =
      2 * r ^ 2 - (Real.tan x ^ 2 + 2 * r ^ 2) * Real.exp (-(Real.tan x ^ 2 / (2 * r ^ 2))) := by
  have hcos : ∀ a, 0 ≤ a → a < Real.pi / 2 → 0 < Real.cos a := fun a h h' =>
    Real.cos_pos_of_mem_Ioo ⟨by linarith [Real.pi_pos], h'⟩
  rw [intervalIntegral.integral_eq_sub_of_hasDerivAt
    (f := fun x => -((Real.tan x ^ 2 + 2 * r ^ 2) * Real.exp (-(Real.tan x ^ 2 / (2 * r ^ 2)))))]
  · simp; ring
  · intro a ha
    rw [Set.uIcc_of_le h0] at ha
    exact slope_sq_deriv hr (hcos a ha.1 (by linarith [ha.2]))
  · apply ContinuousOn.intervalIntegrable
    apply ContinuousOn.mul _ (slopeDensity_cont hr h0 h1)
    intro a ha
    rw [Set.uIcc_of_le h0] at ha
    exact ((Real.continuousAt_tan.2 (hcos a ha.1 (by linarith [ha.2])).ne').pow 2).continuousWithinAt

/-- C90: `P_theta_a` is a probability density on the angles from 0 to 90 degrees, and the mean of the squared slope is `2 r^2`, that
is, `coarse_roughness` is the root mean square slope along each of two perpendicular directions. -/
theorem C90_slope_moments {r : ℝ} (hr : 0 < r) :
    ∃ f : ℝ → ℝ, (∀ a, 0 ≤ a → a < Real.pi / 2 → pThetaA a r = fin (f a)) ∧
      Filter.Tendsto (fun x => ∫ a in (0:ℝ)..x, f a) (nhdsWithin (Real.pi / 2) (Set.Iio (Real.pi / 2))) (nhds 1) ∧
      Filter.Tendsto (fun x => ∫ a in (0:ℝ)..x, Real.tan a ^ 2 * f a) (nhdsWithin (Real.pi / 2) (Set.Iio (Real.pi / 2)))
        (nhds (2 * r ^ 2)) := by
  have hcos : ∀ a, 0 ≤ a → a < Real.pi / 2 → 0 < Real.cos a := fun a h h' =>
    Real.cos_pos_of_mem_Ioo ⟨by linarith [Real.pi_pos], h'⟩
  refine ⟨slopeDensity r, fun a ha ha' => pThetaA_eq hr (hcos a ha ha'), ?_, ?_⟩
  all_goals
    have hu : Filter.Tendsto (fun x => Real.tan x ^ 2 / (2 * r ^ 2)) (nhdsWithin (Real.pi / 2) (Set.Iio (Real.pi / 2))) Filter.atTop :=
      ((Filter.tendsto_pow_atTop (by norm_num)).comp Real.tendsto_tan_pi_div_two).atTop_div_const (by positivity)
    have hev : ∀ᶠ x in nhdsWithin (Real.pi / 2) (Set.Iio (Real.pi / 2)), 0 ≤ x ∧ x < Real.pi / 2 := by
      filter_upwards [self_mem_nhdsWithin, mem_nhdsWithin_of_mem_nhds (Ioi_mem_nhds (show (0:ℝ) < Real.pi / 2 by positivity))] with x h1 h2
      exact ⟨le_of_lt h2, h1⟩
    have he : Filter.Tendsto (fun x => Real.exp (-(Real.tan x ^ 2 / (2 * r ^ 2)))) (nhdsWithin (Real.pi / 2) (Set.Iio (Real.pi / 2))) (nhds 0) :=
      Real.tendsto_exp_neg_atTop_nhds_zero.comp hu
  · have : Filter.Tendsto (fun x => 1 - Real.exp (-(Real.tan x ^ 2 / (2 * r ^ 2)))) (nhdsWithin (Real.pi / 2) (Set.Iio (Real.pi / 2))) (nhds (1 - 0)) :=
      tendsto_const_nhds.sub he
    rw [sub_zero] at this
    refine this.congr' ?_
    filter_upwards [hev] with x hx
    obtain ⟨-, f, hf, hi⟩ := C90_slope_density hr hx.1 hx.2
    rw [← hi]
    apply intervalIntegral.integral_congr
    intro a ha
    rw [Set.uIcc_of_le hx.1] at ha
    have h1 := hf a ha.1 (by linarith [ha.2, hx.2])
    rw [pThetaA_eq hr (hcos a ha.1 (by linarith [ha.2, hx.2])), fin_inj] at h1
    exact h1.symm
  · have hue : Filter.Tendsto (fun x => (Real.tan x ^ 2 / (2 * r ^ 2)) ^ 1 * Real.exp (-(Real.tan x ^ 2 / (2 * r ^ 2))))
        (nhdsWithin (Real.pi / 2) (Set.Iio (Real.pi / 2))) (nhds 0) :=
      (Real.tendsto_pow_mul_exp_neg_atTop_nhds_zero 1).comp hu
    have : Filter.Tendsto (fun x => 2 * r ^ 2 - (2 * r ^ 2 * ((Real.tan x ^ 2 / (2 * r ^ 2)) ^ 1 * Real.exp (-(Real.tan x ^ 2 / (2 * r ^ 2)))) +
          2 * r ^ 2 * Real.exp (-(Real.tan x ^ 2 / (2 * r ^ 2)))))
        (nhdsWithin (Real.pi / 2) (Set.Iio (Real.pi / 2))) (nhds (2 * r ^ 2 - (2 * r ^ 2 * 0 + 2 * r ^ 2 * 0))) :=
      tendsto_const_nhds.sub ((hue.const_mul _).add (he.const_mul _))
    rw [mul_zero, add_zero, sub_zero] at this
    refine this.congr' ?_
    filter_upwards [hev] with x hx
    rw [slope_sq_integral hr hx.1 hx.2]
    field_simp

/-! ### the draw -/

theorem thetaAFull_mem {h : ℝ} (h0 : 0 < h) (i : Fin 500) : 0 ≤ thetaAFull h i ∧ thetaAFull h i ≤ h ∧ (i.val ≠ 0 → 0 < thetaAFull h i) := by
  have hi : ((i.val : ℕ) : ℝ) ≤ 499 := by exact_mod_cast (by omega : i.val ≤ 499)
  have hi0 : (0:ℝ) ≤ ((i.val : ℕ) : ℝ) := Nat.cast_nonneg _
  have e : thetaAFull h i = i.val * (h / 499) := by
    unfold thetaAFull linspace; norm_num
  rw [e]
  refine ⟨by positivity, ?_, fun hne => ?_⟩
  · calc (i.val : ℝ) * (h / 499) ≤ 499 * (h / 499) := by gcongr
      _ = h := by ring
  · have : (0:ℝ) < i.val := by exact_mod_cast Nat.pos_of_ne_zero hne
    positivity

theorem probA_eq {h r : ℝ} (hr : 0 < r) (h0 : 0 < h) (h1 : h < Real.pi / 2) :
    0 < ∑ k, slopeDensity r (thetaAFull h k) ∧
    (∀ i, 0 ≤ slopeDensity r (thetaAFull h i)) ∧
    ∀ i, probA h r i = fin (slopeDensity r (thetaAFull h i) / ∑ k, slopeDensity r (thetaAFull h k)) := by
  have hcos : ∀ i, 0 < Real.cos (thetaAFull h i) := fun i =>
    Real.cos_pos_of_mem_Ioo ⟨by linarith [(thetaAFull_mem h0 i).1, Real.pi_pos], by linarith [(thetaAFull_mem h0 i).2.1]⟩
  have hnn : ∀ i, 0 ≤ slopeDensity r (thetaAFull h i) := fun i => by
    have := hcos i
    have := Real.sin_nonneg_of_nonneg_of_le_pi (thetaAFull_mem h0 i).1 (by linarith [(thetaAFull_mem h0 i).2.1, Real.pi_pos])
    unfold slopeDensity; positivity
  have hpos : 0 < ∑ k, slopeDensity r (thetaAFull h k) := by
    apply Finset.sum_pos' (fun i _ => hnn i)
    refine ⟨⟨1, by norm_num⟩, Finset.mem_univ _, ?_⟩
    have := hcos ⟨1, by norm_num⟩
    have := Real.sin_pos_of_pos_of_lt_pi ((thetaAFull_mem h0 ⟨1, by norm_num⟩).2.2 (by norm_num))
      (by linarith [(thetaAFull_mem h0 ⟨1, by norm_num⟩).2.1, Real.pi_pos])
    unfold slopeDensity; positivity
  refine ⟨hpos, hnn, fun i => ?_⟩
  unfold probA
  rw [Finset.sum_congr rfl fun k _ => pThetaA_eq hr (hcos k), sum_fin, pThetaA_eq hr (hcos i), fin_div _ hpos.ne']

/-- C90: entering a rough film.  For every roughness `r > 0`, `coarse_roughness_enter` succeeds; every photon meets a facet whose slope is
one of the tabulated angles strictly between 0 and 90 degrees, drawn with probability proportional to `P_theta_a`; the direction, the local
incidence and the reflected direction of photon `j` are those of its own facet; nothing but event 0 is filled. -/
theorem C90_rough_enter (k0 : ℕ → Fin nt → XV) {nm ns r hp : ℝ} (hr : 0 < r) (h0 : 0 < hp) (h1 : hp < Real.pi / 2)
    (draw : Fin nt → Fin 500) (hdraw : Drawn (probA hp r) draw) :
    (∃ p : Fin 500 → ℝ, (∀ i, probA hp r i = fin (p i)) ∧ (∀ i, 0 ≤ p i) ∧ ∑ i, p i = 1 ∧
      ∀ i j, p i * slopeDensity r (thetaAFull hp j) = p j * slopeDensity r (thetaAFull hp i)) ∧
    ∃ res, coarseRoughnessEnter k0 nm ns r .film hp draw = .ok res ∧
      ∃ a : Fin nt → ℝ, (∀ j, 0 < a j ∧ a j < Real.pi / 2 ∧ a j = thetaAFull hp (draw j)) ∧
        (∀ j, (res.1 0 j, res.2.1 j, res.2.2 j) = coarseEnter (k0 0 j) nm |ns| (a j)) ∧
        ∀ n j, n ≠ 0 → res.1 n j = finV 0 0 0 := by
  obtain ⟨hpos, hnn, hp'⟩ := probA_eq hr h0 h1
  have hok : choiceOk (probA hp r) := by
    refine ⟨fun i => ?_, ?_⟩
    · rw [hp' i, fin_le]; exact div_nonneg (hnn i) hpos.le
    · rw [Finset.sum_congr rfl fun i _ => hp' i, sum_fin, ← Finset.sum_div, div_self hpos.ne']
  refine ⟨⟨_, hp', fun i => div_nonneg (hnn i) hpos.le, by rw [← Finset.sum_div, div_self hpos.ne'], fun i j => by ring⟩, ?_⟩
  have hs : slopes hp r draw = .ok fun j => thetaAFull hp (draw j) := by
    unfold slopes
    rw [if_neg, if_pos hok]
    intro h
    have := h ⟨0, by norm_num⟩
    rw [hp'] at this
    exact this
  unfold coarseRoughnessEnter
  rw [if_neg (by decide), hs]
  refine ⟨_, rfl, fun j => thetaAFull hp (draw j), fun j => ⟨?_, ?_, rfl⟩, fun j => rfl, fun n j hn => if_neg hn⟩
  · apply (thetaAFull_mem h0 _).2.2
    intro hz
    have := hdraw j
    rw [hp', fin_lt] at this
    have hz' : thetaAFull hp (draw j) = 0 := by simp [thetaAFull, linspace, hz]
    rw [hz'] at this
    simp [slopeDensity] at this
  · linarith [(thetaAFull_mem h0 (draw j)).2.1]

/-- C90: with roughness 0 the surface is flat: every facet is level, so the light is refracted as at a plane film; a sphere is refused
whatever the roughness. -/
theorem C90_flat_limit (k0 : ℕ → Fin nt → XV) (nm ns r hp : ℝ) (draw : Fin nt → Fin 500) :
    coarseRoughnessEnter k0 nm ns r .sphere hp draw = .error .valueError ∧
    ∃ res, coarseRoughnessEnter k0 nm ns 0 .film hp draw = .ok res ∧
      ∀ j, (res.1 0 j, res.2.1 j, res.2.2 j) = coarseEnter (k0 0 j) nm |ns| 0 := by
  refine ⟨rfl, ?_⟩
  have hn0 : pThetaA (thetaAFull hp ⟨0, by norm_num⟩) 0 = nan := by
    have : thetaAFull hp ⟨0, by norm_num⟩ = 0 := by simp [thetaAFull, linspace]
    rw [this]
    simp [pThetaA, fin_div_def, infOfSign]
  have hnan : ∀ i, isNaN (probA hp 0 i) := by
    intro i
    rw [isNaN_iff]
    unfold probA
    rw [sum_nan Finset.univ (fun k => pThetaA (thetaAFull hp k) 0) _ (Finset.mem_univ _) hn0, div_nan]
  unfold coarseRoughnessEnter
  rw [if_neg (by decide)]
  have hs : slopes hp 0 draw = .ok fun _ => (0:ℝ) := by unfold slopes; rw [if_pos hnan]
  rw [hs]
  exact ⟨_, rfl, fun j => rfl⟩

/-- the hypotheses are met by a roughness of one half, a grid ending just below 90 degrees, and light falling straight down -/
example : ∃ res, coarseRoughnessEnter (nt := 3) (fun _ _ => finV 0 0 1) 1 1.5 0.5 .film 1.57 (fun _ => ⟨100, by norm_num⟩) = .ok res := by
  have hpi : (1.57:ℝ) < Real.pi / 2 := by linarith [Real.pi_gt_d2]
  refine (C90_rough_enter (nt := 3) _ (nm := 1) (ns := 1.5) (by norm_num) (by norm_num) hpi _ ?_).2.imp fun _ h => h.1
  intro j
  obtain ⟨hpos, -, hp'⟩ := probA_eq (h := 1.57) (r := 0.5) (by norm_num) (by norm_num) hpi
  rw [hp', fin_lt]
  refine div_pos ?_ hpos
  have hm := thetaAFull_mem (h := 1.57) (by norm_num) ⟨100, by norm_num⟩
  have h1 := Real.cos_pos_of_mem_Ioo (x := thetaAFull 1.57 ⟨100, by norm_num⟩) ⟨by linarith [hm.1, Real.pi_pos], by linarith [hm.2.1]⟩
  have h2 := Real.sin_pos_of_pos_of_lt_pi (hm.2.2 (Nat.succ_ne_zero 99)) (by linarith [hm.2.1, Real.pi_pos])
  exact mul_pos (div_pos h2 (mul_pos (by norm_num) (pow_pos h1 3))) (Real.exp_pos _)

end Verif.Props
