import Verif.Lemmas.Riemann
import Verif.Props.Persistence

/-!
# C130: on a fine grid of angles, scattering angles are sampled from the continuous phase function
-/

namespace Verif.Props
open MeasureTheory ProbabilityTheory Filter Topology Set
open Verif.Spec Verif.Traj Verif.Riemann XF

variable {nt : ℕ}

/-- averages over the grid converge to averages over the phase function -/
theorem meanOver_limit {f : ℝ → ℝ} (hf : ContinuousOn f (Icc 0 Real.pi)) {m : ℝ} (hm0 : 0 ≤ m)
    (hm1 : m < Real.pi) (hpos : 0 < ∫ t in m..Real.pi, f t * Real.sin t) (c : ℕ → ℝ) (hc : ∀ n, 0 < c n) (ψ : ℝ → ℝ) (C : ℝ)
    (hC : ∀ x ∈ Icc m Real.pi, |ψ x| ≤ C) (hψ : ∀ᵐ x, x ∈ Icc m Real.pi → ContinuousWithinAt ψ (Icc m Real.pi) x) :
    Tendsto (fun n : ℕ => meanOver (n := n) (fun k => c n * f (gridAngle m Real.pi n k)) m ψ) atTop
      (𝓝 ((∫ t in m..Real.pi, f t * Real.sin t * ψ t) / ∫ t in m..Real.pi, f t * Real.sin t)) := by
  have hsub : Icc m Real.pi ⊆ Icc 0 Real.pi := Icc_subset_Icc_left hm0
  have hfs : ContinuousOn (fun t => f t * Real.sin t) (Icc m Real.pi) := (hf.mono hsub).mul Real.continuous_sin.continuousOn
  obtain ⟨B, hB⟩ := isCompact_Icc.exists_bound_of_continuousOn hfs
  have l1 := linspace_sum_tendsto hm1 (fun t => f t * Real.sin t) B hB (Eventually.of_forall fun x hx => hfs x hx)
  have l2 := linspace_sum_tendsto hm1 (fun t => f t * Real.sin t * ψ t) (B * C) (fun x hx => by
      rw [abs_mul]
      have := hB x hx
      rw [Real.norm_eq_abs] at this
      exact mul_le_mul this (hC x hx) (abs_nonneg _) ((abs_nonneg _).trans this))
    (by filter_upwards [hψ] with x hx hm; exact (hfs x hm).mul (hx hm))
  refine (l2.div l1 hpos.ne').congr' ?_
  filter_upwards [eventually_gt_atTop 0] with n hn
  have hn0 : (0 : ℝ) < n := by exact_mod_cast hn
  have hd : (Real.pi - m) / n ≠ 0 := (div_pos (by linarith) hn0).ne'
  have hcn := (hc n).ne'
  unfold meanOver
  simp only [Pi.div_apply, mul_assoc (c n), ← Finset.mul_sum]
  rw [mul_div_mul_left _ _ hd, mul_div_mul_left _ _ hcn, ← Fin.sum_univ_eq_sum_range (fun i => f (linspace m Real.pi (n + 1) i) *
    Real.sin (linspace m Real.pi (n + 1) i) * ψ (linspace m Real.pi (n + 1) i)) (n + 1),
    ← Fin.sum_univ_eq_sum_range (fun i => f (linspace m Real.pi (n + 1) i) * Real.sin (linspace m Real.pi (n + 1) i)) (n + 1)]
  simp only [linspace_grid]

theorem weights_pos_eventually {f : ℝ → ℝ} (hf : ContinuousOn f (Icc 0 Real.pi)) {m : ℝ} (hm0 : 0 ≤ m)
    (hm1 : m < Real.pi) (hpos : 0 < ∫ t in m..Real.pi, f t * Real.sin t) (c : ℕ → ℝ) (hc : ∀ n, 0 < c n) :
    ∀ᶠ n : ℕ in atTop, 0 < ∑ k : Fin (n + 1), c n * f (gridAngle m Real.pi n k) * Real.sin (gridAngle m Real.pi n k) := by
  have hsub : Icc m Real.pi ⊆ Icc 0 Real.pi := Icc_subset_Icc_left hm0
  have hfs : ContinuousOn (fun t => f t * Real.sin t) (Icc m Real.pi) := (hf.mono hsub).mul Real.continuous_sin.continuousOn
  obtain ⟨B, hB⟩ := isCompact_Icc.exists_bound_of_continuousOn hfs
  have l1 := linspace_sum_tendsto hm1 (fun t => f t * Real.sin t) B hB (Eventually.of_forall fun x hx => hfs x hx)
  filter_upwards [l1.eventually (lt_mem_nhds hpos), eventually_gt_atTop 0] with n hn hn1
  have hn0 : (0 : ℝ) < n := by exact_mod_cast hn1
  have hd : 0 < (Real.pi - m) / n := div_pos (by linarith) hn0
  have := (mul_pos_iff_of_pos_left hd).mp hn
  rw [← Fin.sum_univ_eq_sum_range (fun i => f (linspace m Real.pi (n + 1) i) * Real.sin (linspace m Real.pi (n + 1) i)) (n + 1)] at this
  simp only [mul_assoc (c n), ← Finset.mul_sum]
  simp only [linspace_grid] at this
  exact mul_pos (hc n) this

/-- the probability that the sampled angle is at most `t` -/
private theorem cdf_eq {Ω : Type} [MeasurableSpace Ω] (P : Measure Ω) [IsProbabilityMeasure P] {n : ℕ}
    (U : (ℕ × Fin nt) × Fin 2 → Ω → ℝ) (hU : UniformDraws P U) (nevents : ℕ) (p : Fin (n + 1) → ℝ) (m : ℝ)
    (hp : ∀ k, 0 ≤ p k) (hm0 : 0 ≤ m) (hm1 : m < Real.pi)
    (hpos : 0 < ∑ k, p k * Real.sin (gridAngle m Real.pi n k)) (ang : Ω → Angles nt)
    (hok : ∀ ω, sampleAnglesRng1 nevents p m (fun i j => U ((i, j), 0) ω) (fun i j => U ((i, j), 1) ω) = .ok (ang ω))
    (e : ℕ) (j : Fin nt) (t : ℝ) :
    P.real {ω | (ang ω).theta e j ≤ t} = meanOver p m fun x => if x ≤ t then 1 else 0 := by
  obtain ⟨-, hth, -⟩ := C105_angle_distribution P U hU nevents p m hp hm0 hm1 hpos ang hok
  have hA := ang_eq hok
  set K : Ω → Fin (n + 1) := fun ω => choiceIndex (probTheta p m) (U ((e, j), 0) ω) with hK
  have hmK : Measurable K := (measurable_choiceIndex _).comp (hU.meas _)
  have hset : {ω | (ang ω).theta e j ≤ t} = ⋃ k ∈ (Finset.univ.filter fun k : Fin (n + 1) => gridAngle m Real.pi n k ≤ t), K ⁻¹' {k} := by
    ext ω
    simp only [Set.mem_ofPred_eq, (hA ω).1, mem_iUnion, Finset.mem_filter, Finset.mem_univ, true_and, mem_preimage, mem_singleton_iff, exists_prop,
      hK]
    exact ⟨fun h => ⟨_, h, rfl⟩, fun ⟨k, h, hk⟩ => hk ▸ h⟩
  have hpk : ∀ k, P.real (K ⁻¹' {k}) = p k * Real.sin (gridAngle m Real.pi n k) / ∑ k', p k' * Real.sin (gridAngle m Real.pi n k') := by
    intro k
    rw [← hth e j k]
    congr 1
    ext ω
    simp only [mem_preimage, mem_singleton_iff, Set.mem_ofPred_eq, (hA ω).1, hK]
    exact (gridAngle_inj hm1 n).eq_iff.symm
  rw [hset, measureReal_biUnion_finset]
  · unfold meanOver
    rw [Finset.sum_div, Finset.sum_filter]
    refine Finset.sum_congr rfl fun k _ => ?_
    dsimp only
    by_cases h : gridAngle m Real.pi n k ≤ t
    · rw [if_pos h, if_pos h, hpk, mul_one]
    · rw [if_neg h, if_neg h, mul_zero, zero_div]
  · intro a _ b _ hab
    exact Disjoint.preimage _ (by simpa using hab)
  · intro k _
    exact hmK (measurableSet_singleton k)

/-- **C130.**  Let `f` be a continuous phase function (of any normalisation, which may depend on the grid).  On every sufficiently fine grid
the sampling succeeds, and as the grid is refined, the probability that a scattering angle is at most `t` converges to the share of light
that `f` scatters into angles from the smallest one to `t`, weighted by solid angle; and after `e` events the mean of the direction cosine
of light incident along z converges to `g^e`, with `g` the mean cosine of the continuous phase function. -/
theorem C130_fine_grid {Ω : Type} [MeasurableSpace Ω] (P : Measure Ω) [IsProbabilityMeasure P] (U : (ℕ × Fin nt) × Fin 2 → Ω → ℝ)
    (hU : UniformDraws P U) (nevents : ℕ) (f : ℝ → ℝ) (hf0 : ∀ t, 0 ≤ f t) (hf : ContinuousOn f (Icc 0 Real.pi)) (m : ℝ) (hm0 : 0 ≤ m)
    (hm1 : m < Real.pi) (hpos : 0 < ∫ t in m..Real.pi, f t * Real.sin t) (c : ℕ → ℝ) (hc : ∀ n, 0 < c n) :
    ∃ (N : ℕ) (ang : ℕ → Ω → Angles nt),
      (∀ n, N ≤ n → ∀ ω, sampleAnglesRng1 (n := n) nevents (fun k => c n * f (gridAngle m Real.pi n k)) m (fun i j => U ((i, j), 0) ω)
        (fun i j => U ((i, j), 1) ω) = .ok (ang n ω)) ∧
      (∀ e j t, m ≤ t → t ≤ Real.pi → Tendsto (fun n => P.real {ω | (ang n ω).theta e j ≤ t}) atTop
        (𝓝 ((∫ x in m..t, f x * Real.sin x) / ∫ x in m..Real.pi, f x * Real.sin x))) ∧
      ∀ (kn : ℕ → Fin nt → V3) (j : Fin nt), kn 0 j = ⟨0, 0, 1⟩ → ∀ e, e < nevents →
        Tendsto (fun n => ∫ ω, (scatter nevents kn (ang n ω).sintheta (ang n ω).costheta (ang n ω).sinphi (ang n ω).cosphi e j).z ∂P) atTop
          (𝓝 (((∫ x in m..Real.pi, f x * Real.sin x * Real.cos x) / ∫ x in m..Real.pi, f x * Real.sin x) ^ e)) := by
  obtain ⟨N, hN⟩ := eventually_atTop.mp (weights_pos_eventually hf hm0 hm1 hpos c hc)
  have hex : ∀ n, ∀ ω, ∃ a : Angles nt, N ≤ n → sampleAnglesRng1 (n := n) nevents (fun k => c n * f (gridAngle m Real.pi n k)) m
      (fun i j => U ((i, j), 0) ω) (fun i j => U ((i, j), 1) ω) = .ok a := by
    intro n ω
    by_cases hn : N ≤ n
    · have hp : ∀ k : Fin (n + 1), 0 ≤ c n * f (gridAngle m Real.pi n k) := fun k => mul_nonneg (hc n).le (hf0 _)
      have hw := hN n hn
      have hw' : 0 < ∑ k : Fin (n + 1), solidWeight (fun k => c n * f (gridAngle m Real.pi n k)) m k := by
        simpa only [solidWeight, linspace_grid] using hw
      have hok : choiceOk (probTheta (fun k : Fin (n + 1) => c n * f (gridAngle m Real.pi n k)) m) := by
        have hπ := Real.pi_pos
        have : choiceOk (fun i : Fin (n + 1) => fin (solidWeight (fun k => c n * f (gridAngle m Real.pi n k)) m i * 2 * Real.pi) /
            fin (∑ k, solidWeight (fun k : Fin (n + 1) => c n * f (gridAngle m Real.pi n k)) m k * 2 * Real.pi)) := by
          refine choiceOk_of (fun i => ?_) ?_
          · have : 0 ≤ solidWeight (fun k : Fin (n + 1) => c n * f (gridAngle m Real.pi n k)) m i :=
              mul_nonneg (hp i) (sin_linspace_nonneg hm0 hm1.le i.isLt)
            positivity
          · rw [← Finset.sum_mul, ← Finset.sum_mul]; positivity
        exact this
      exact ⟨_, fun _ => by rw [sampleAnglesRng1, sampleAngles1]; exact if_pos (Or.inr hok)⟩
    · exact ⟨⟨fun _ _ => 0, fun _ _ => 0, fun _ _ => 0, fun _ _ => 0, fun _ _ => 0, fun _ _ => 0, 0⟩, fun h => absurd h hn⟩
  choose ang hang using hex
  refine ⟨N, ang, fun n hn ω => hang n ω hn, fun e j t ht0 ht1 => ?_, fun kn j hkn e he => ?_⟩
  · have hfs : ∀ a b, m ≤ a → a ≤ b → b ≤ Real.pi → IntervalIntegrable (fun x => f x * Real.sin x) volume a b := by
      intro a b ha hab hb
      refine ContinuousOn.intervalIntegrable ?_
      rw [uIcc_of_le hab]
      exact (hf.mono (Icc_subset_Icc (hm0.trans ha) hb)).mul Real.continuous_sin.continuousOn
    have hint : ∫ x in m..Real.pi, f x * Real.sin x * (if x ≤ t then 1 else 0) = ∫ x in m..t, f x * Real.sin x := by
      have e1 : ∫ x in m..t, f x * Real.sin x * (if x ≤ t then 1 else 0) = ∫ x in m..t, f x * Real.sin x := by
        refine intervalIntegral.integral_congr_ae (Eventually.of_forall fun x hx => ?_)
        rw [uIoc_of_le ht0] at hx
        rw [if_pos hx.2, mul_one]
      have e2 : ∫ x in t..Real.pi, f x * Real.sin x * (if x ≤ t then 1 else 0) = 0 := by
        rw [intervalIntegral.integral_congr_ae (g := fun _ => (0 : ℝ)) (Eventually.of_forall fun x hx => ?_)]
        · simp
        · rw [uIoc_of_le ht1] at hx
          rw [if_neg (not_le.mpr hx.1), mul_zero]
      rw [← intervalIntegral.integral_add_adjacent_intervals (b := t) ?_ ?_, e1, e2, add_zero]
      · refine (hfs m t le_rfl ht0 ht1).congr ?_
        intro x hx
        rw [uIoc_of_le ht0] at hx
        simp only [if_pos hx.2, mul_one]
      · refine (intervalIntegrable_const (c := (0 : ℝ))).congr ?_
        intro x hx
        rw [uIoc_of_le ht1] at hx
        simp only [if_neg (not_le.mpr hx.1), mul_zero]
    have lim := meanOver_limit hf hm0 hm1 hpos c hc (fun x => if x ≤ t then 1 else 0) 1 (fun x _ => by split <;> norm_num) ?_
    · rw [hint] at lim
      refine lim.congr' ?_
      filter_upwards [eventually_ge_atTop N] with n hn
      exact (cdf_eq P U hU nevents _ m (fun k => mul_nonneg (hc n).le (hf0 _)) hm0 hm1 (hN n hn) (ang n) (fun ω => hang n ω hn) e j t).symm
    · have : ∀ᵐ x : ℝ, x ≠ t := by rw [ae_iff]; simp
      filter_upwards [this] with x hx _
      refine ContinuousAt.continuousWithinAt ?_
      rcases lt_or_gt_of_ne hx with h | h
      · refine (continuousAt_const (y := (1 : ℝ))).congr ?_
        filter_upwards [gt_mem_nhds h] with y hy
        rw [if_pos (le_of_lt hy)]
      · refine (continuousAt_const (y := (0 : ℝ))).congr ?_
        filter_upwards [lt_mem_nhds h] with y hy
        rw [if_neg (not_le.mpr hy)]
  · have lim := meanOver_limit hf hm0 hm1 hpos c hc Real.cos 1 (fun x _ => Real.abs_cos_le_one x)
      (Eventually.of_forall fun x _ => Real.continuous_cos.continuousWithinAt)
    refine (lim.pow e).congr' ?_
    filter_upwards [eventually_ge_atTop N] with n hn
    exact (C107_mean_direction_partial P U hU nevents _ m (fun k => mul_nonneg (hc n).le (hf0 _)) hm0 hm1 (hN n hn) (ang n)
      (fun ω => hang n ω hn) kn j hkn _ (fun _ _ => rfl) e he).2.2.symm

/-- Isotropic scattering on a grid of angles from 0 to π meets the hypotheses, and so does forward-peaked scattering `(1 + cos)²` from a
smallest angle of 1 degree. -/
example : (∃ (Ω : Type) (_ : MeasurableSpace Ω) (P : Measure Ω) (U : (ℕ × Fin 3) × Fin 2 → Ω → ℝ),
      IsProbabilityMeasure P ∧ UniformDraws P U) ∧
    (0 < ∫ t in (0 : ℝ)..Real.pi, (1 : ℝ) * Real.sin t) ∧
    0 < ∫ t in (Real.pi / 180)..Real.pi, (1 + Real.cos t) ^ 2 * Real.sin t := by
  have hπ := Real.pi_pos
  refine ⟨uniformDraws_exist _, by simp, ?_⟩
  refine intervalIntegral.intervalIntegral_pos_of_pos_on (Continuous.intervalIntegrable (by fun_prop) _ _) (fun x hx => ?_) (by linarith)
  have h1 : 0 < Real.sin x := Real.sin_pos_of_pos_of_lt_pi (by linarith [hx.1]) hx.2
  have h2 : -1 < Real.cos x := by
    rw [← Real.cos_pi]
    exact Real.cos_lt_cos_of_nonneg_of_le_pi (by linarith [hx.1]) le_rfl hx.2
  exact mul_pos (pow_pos (by linarith) 2) h1

end Verif.Props
