import Verif.Props.Traj
import Mathlib.Algebra.BigOperators.Field

/-!
# C34, C35, C71: sampled steps and angles
-/

namespace Verif.Props
open Verif.Traj Verif.Spec Verif.XF
open Verif (XF PyErr)

variable {nt : ℕ}

/-! ### C34 -/

theorem pyRound_spec (x : ℝ) : |(pyRound x : ℝ) - x| ≤ 1 / 2 := by
  have h1 := Int.floor_le x
  have h2 := Int.lt_floor_add_one x
  unfold pyRound
  split_ifs <;> rw [abs_le] <;> push_cast <;> constructor <;> linarith

theorem pyRound_bounds {n : ℕ} {x : ℝ} (h0 : 0 ≤ x) (h1 : x ≤ n) : (pyRound x).toNat ≤ n := by
  have hf : 0 ≤ ⌊x⌋ := Int.floor_nonneg.mpr h0
  have hfl := Int.floor_le x
  have : pyRound x ≤ n := by
    have hn : ⌊x⌋ ≤ n := by
      have : (⌊x⌋ : ℝ) ≤ (n : ℤ) := by push_cast; linarith
      exact_mod_cast this
    by_cases he : ⌊x⌋ = n
    · have hx : x = n := by
        have : (⌊x⌋ : ℝ) = n := by rw [he]; push_cast; rfl
        linarith
      unfold pyRound
      rw [if_pos]
      · exact hn
      · rw [hx]; simp
    · unfold pyRound; split_ifs <;> omega
  omega

/-- C34.  `sample_step` fails exactly when `fine_roughness` is outside [0,1], with a ValueError. -/
theorem C34_sample_step_error (mu : ℝ) (mie : Option ℝ) (fr : ℝ) (rand : ℕ → Fin nt → ℝ) (rm : ℕ → ℝ) :
    (¬ (0 ≤ fr ∧ fr ≤ 1) → sampleStep nt mu mie fr rand rm = .error .valueError) ∧
    (0 ≤ fr ∧ fr ≤ 1 → ∃ step, sampleStep nt mu mie fr rand rm = .ok step) := by
  constructor
  · intro h
    have h' : 1 < fr ∨ fr < 0 := by
      by_contra hc; push Not at hc; exact h ⟨hc.2, hc.1⟩
    simp only [sampleStep, if_pos h']
  · intro h
    have h' : ¬ (1 < fr ∨ fr < 0) := by push Not; exact ⟨h.2, h.1⟩
    cases mie with
    | none => exact ⟨_, by simp only [sampleStep, if_neg h']; rfl⟩
    | some m => exact ⟨_, by simp only [sampleStep, if_neg h']; rfl⟩

/-- what the step of event `i`, trajectory `j` must be: an exponential quantile of the draw used for it -/
def IsStep (mu draw : ℝ) (x : XF) : Prop := ∃ r : ℝ, x = fin r ∧ 0 ≤ r ∧ Real.exp (-(mu * r)) = 1 - draw

theorem isStep_of {mu draw : ℝ} (hmu : 0 < mu) (h0 : 0 ≤ draw) (h1 : draw < 1) :
    IsStep mu draw (fin (-Real.log (1 - draw)) / fin mu) := by
  refine ⟨-Real.log (1 - draw) / mu, fin_div _ hmu.ne', ?_, ?_⟩
  · apply div_nonneg _ hmu.le
    have := Real.log_nonpos (show (0 : ℝ) ≤ 1 - draw by linarith) (by linarith)
    linarith
  · have : -(mu * (-Real.log (1 - draw) / mu)) = Real.log (1 - draw) := by field_simp
    rw [this, Real.exp_log (by linarith)]

/-- C34.  For positive scattering coefficients and draws in [0,1), every step is a finite, non-negative length at which the
unscattered fraction `exp(-mu r)` equals one minus the draw.  The first step of the trajectories numbered below
`round(ntraj * fine_roughness)` uses the second coefficient (when one is given); every other step the first. -/
theorem C34_sample_step_values (mu : ℝ) (mie : Option ℝ) (fr : ℝ) (rand : ℕ → Fin nt → ℝ) (rm : ℕ → ℝ)
    (hmu : 0 < mu) (hmie : ∀ m ∈ mie, 0 < m) (hr : ∀ i j, 0 ≤ rand i j ∧ rand i j < 1) (hrm : ∀ i, 0 ≤ rm i ∧ rm i < 1)
    (step : ℕ → Fin nt → XF) (hok : sampleStep nt mu mie fr rand rm = .ok step) (i : ℕ) (j : Fin nt) :
    (∀ m ∈ mie, i = 0 → (j.val : ℤ) < pyRound (nt * fr) → IsStep m (rm j) (step i j)) ∧
    ((mie = none ∨ i ≠ 0 ∨ pyRound (nt * fr) ≤ j.val) → IsStep mu (rand i j) (step i j)) := by
  by_cases h' : 1 < fr ∨ fr < 0
  · simp only [sampleStep, if_pos h'] at hok; cases hok
  simp only [sampleStep, if_neg h'] at hok
  cases mie with
  | none =>
    simp only at hok
    injection hok with hok
    subst hok
    exact ⟨fun m hm => (nomatch hm), fun _ => isStep_of hmu (hr i j).1 (hr i j).2⟩
  | some m =>
    simp only at hok
    injection hok with hok
    subst hok
    constructor
    · rintro m' hm' hi hj
      cases hm'
      beta_reduce
      rw [if_pos ⟨hi, by omega⟩]
      exact isStep_of (hmie m rfl) (hrm j).1 (hrm j).2
    · intro h
      beta_reduce
      rw [if_neg]
      · exact isStep_of hmu (hr i j).1 (hr i j).2
      · rintro ⟨hi, hj⟩
        rcases h with h | h | h
        · cases h
        · exact h hi
        · omega

/-- C34.  Larger draws give longer steps and a larger coefficient shorter ones. -/
theorem C34_sample_step_monotone {mu mu' d d' r r' : ℝ} (h : IsStep mu d (fin r)) (h' : IsStep mu' d' (fin r'))
    (hmu : 0 < mu) (hmm : mu' ≤ mu) (hd : d ≤ d') : r ≤ r' := by
  obtain ⟨a, ha, ha0, he⟩ := h
  obtain ⟨b, hb, hb0, he'⟩ := h'
  cases ha; cases hb
  have : Real.exp (-(mu' * r')) ≤ Real.exp (-(mu * r)) := by rw [he, he']; linarith
  rw [Real.exp_le_exp] at this
  by_contra hc
  push Not at hc
  nlinarith

/-- C34.  The number of trajectories whose first step is resampled is within one half of `ntraj * fine_roughness` and at most
`ntraj`. -/
theorem C34_fine_roughness_count (fr : ℝ) (h0 : 0 ≤ fr) (h1 : fr ≤ 1) :
    |(pyRound (nt * fr) : ℝ) - nt * fr| ≤ 1 / 2 ∧ 0 ≤ pyRound (nt * fr) ∧ pyRound (nt * fr) ≤ nt := by
  have hn : (0 : ℝ) ≤ nt := Nat.cast_nonneg nt
  have hx0 : 0 ≤ (nt : ℝ) * fr := mul_nonneg hn h0
  refine ⟨pyRound_spec _, ?_, ?_⟩
  · have hf : 0 ≤ ⌊(nt : ℝ) * fr⌋ := Int.floor_nonneg.mpr hx0
    unfold pyRound; split_ifs <;> omega
  · have := pyRound_bounds (n := nt) hx0 (by nlinarith)
    omega

/-- Non-vacuity of C34: half of two trajectories see the rough surface. -/
example : ∃ step, sampleStep 2 1 (some 2) (1 / 2) (fun _ _ => 1 / 2) (fun _ => 1 / 2) = .ok step :=
  (C34_sample_step_error _ _ _ _ _).2 ⟨by norm_num, by norm_num⟩

/-! ### C35 -/

theorem linspace_mem {a b : ℝ} (h : a ≤ b) {num i : ℕ} (hi : i < num) : a ≤ linspace a b num i ∧ linspace a b num i ≤ b := by
  unfold linspace
  split
  · exact ⟨le_rfl, h⟩
  · rename_i h1
    have hn : (2 : ℝ) ≤ num := by exact_mod_cast (show 2 ≤ num by omega)
    have hi' : (i : ℝ) ≤ num - 1 := by
      have : (i : ℝ) + 1 ≤ num := by exact_mod_cast hi
      linarith
    have hd : 0 < (num : ℝ) - 1 := by linarith
    have hi0 : (0 : ℝ) ≤ i := Nat.cast_nonneg i
    constructor
    · have : 0 ≤ (i : ℝ) * ((b - a) / (num - 1)) := mul_nonneg hi0 (div_nonneg (by linarith) hd.le)
      linarith
    · have : (i : ℝ) * ((b - a) / (num - 1)) ≤ b - a := by
        rw [mul_div_assoc', div_le_iff₀ hd]; nlinarith
      linarith

theorem sin_linspace_nonneg {m : ℝ} (h0 : 0 ≤ m) (h1 : m ≤ Real.pi) {num i : ℕ} (hi : i < num) :
    0 ≤ Real.sin (linspace m Real.pi num i) :=
  Real.sin_nonneg_of_nonneg_of_le_pi (h0.trans (linspace_mem h1 hi).1) (linspace_mem h1 hi).2

/-- normalising non-negative weights with a positive sum gives probabilities -/
theorem choiceOk_of {num : ℕ} {w : Fin num → ℝ} (h : ∀ i, 0 ≤ w i) (hs : 0 < ∑ i, w i) :
    choiceOk (fun i => fin (w i) / fin (∑ k, w k)) := by
  have e : ∀ i, (fin (w i) / fin (∑ k, w k) : XF) = fin (w i / ∑ k, w k) := fun i => fin_div _ hs.ne'
  refine ⟨fun i => ?_, ?_⟩
  · beta_reduce; rw [e, fin_le]; exact div_nonneg (h i) hs.le
  · simp only [e, sum_fin, fin_inj]
    rw [← Finset.sum_div]; exact div_self hs.ne'

/-- weights that sum to zero: every entry is NaN or infinite, and NumPy's `choice` refuses them -/
theorem not_choiceOk_of {num : ℕ} {w : Fin num → ℝ} (h : ∀ i, 0 ≤ w i) (hs : ∑ i, w i = 0) :
    ¬ choiceOk (fun i => fin (w i) / fin (∑ k, w k)) := by
  intro ⟨h1, h2⟩
  have hw : ∀ i, w i = 0 := fun i => (Finset.sum_eq_zero_iff_of_nonneg (fun i _ => h i)).mp hs i (Finset.mem_univ i)
  cases num with
  | zero => simp [zero_def] at h2
  | succ n =>
    have := h1 0
    simp only [hs, hw 0, fin_div_def, if_true, infOfSign, lt_irrefl, if_false] at this
    exact this

/-- the discrete solid-angle weight of the phase function on the theta grid -/
noncomputable def solidWeight {num : ℕ} (p : Fin num → ℝ) (m : ℝ) (i : Fin num) : ℝ :=
  p i * Real.sin (linspace m Real.pi num i)

theorem probTheta_eq {num : ℕ} (p : Fin num → ℝ) (m : ℝ) (i : Fin num) :
    probTheta p m i = fin (solidWeight p m i * 2 * Real.pi) / fin (∑ k, solidWeight p m k * 2 * Real.pi) := rfl

/-- C35, phase function of theta.  For a non-negative phase function that does not vanish on the open grid, and a minimum
angle in [0, pi], the sampling succeeds for every random stream; there are `nevents - 1` rows; every theta is one of the grid
angles and lies in [min_angle, pi]; every phi lies in [0, 2 pi); and the sines and cosines are those of the angles. -/
theorem C35_sample_angles_1d {num : ℕ} (nevents : ℕ) (p : Fin num → ℝ) (m : ℝ) (draw : ℕ → Fin nt → Fin num)
    (rand : ℕ → Fin nt → ℝ) (hp : ∀ i, 0 ≤ p i) (hm0 : 0 ≤ m) (hm1 : m ≤ Real.pi)
    (hpos : 0 < ∑ i, solidWeight p m i) (hr : ∀ i j, 0 ≤ rand i j ∧ rand i j < 1) :
    ∃ a, sampleAngles1 nevents p m draw rand = .ok a ∧ a.rows = nevents - 1 ∧
      (∀ i j, (∃ g : Fin num, a.theta i j = linspace m Real.pi num g) ∧ m ≤ a.theta i j ∧ a.theta i j ≤ Real.pi ∧
        0 ≤ a.phi i j ∧ a.phi i j < 2 * Real.pi ∧
        a.sintheta i j = Real.sin (a.theta i j) ∧ a.costheta i j = Real.cos (a.theta i j) ∧
        a.sinphi i j = Real.sin (a.phi i j) ∧ a.cosphi i j = Real.cos (a.phi i j)) ∧
      Consistent a.sintheta a.costheta a.sinphi a.cosphi := by
  have hpi := Real.pi_pos
  have hw : ∀ i, 0 ≤ solidWeight p m i := fun i => mul_nonneg (hp i) (sin_linspace_nonneg hm0 hm1 i.isLt)
  have hok : choiceOk (probTheta p m) := by
    have : choiceOk (fun i => fin (solidWeight p m i * 2 * Real.pi) / fin (∑ k, solidWeight p m k * 2 * Real.pi)) := by
      refine choiceOk_of (fun i => by have := hw i; positivity) ?_
      rw [← Finset.sum_mul, ← Finset.sum_mul]; positivity
    exact this
  refine ⟨_, by rw [sampleAngles1]; exact if_pos (Or.inr hok), rfl, ?_, ?_⟩
  · intro i j
    have hl := linspace_mem hm1 (draw i j).isLt
    refine ⟨⟨draw i j, rfl⟩, hl.1, hl.2, ?_, ?_, rfl, rfl, rfl, rfl⟩
    · exact mul_nonneg (by positivity) (hr i j).1
    · show 2 * Real.pi * rand i j < 2 * Real.pi
      nlinarith [(hr i j).2]
  · intro n j
    exact ⟨Real.sin_sq_add_cos_sq _, Real.sin_sq_add_cos_sq _⟩

/-- C35, phase function of theta and phi. -/
theorem C35_sample_angles_2d {num num_phi : ℕ} (nevents : ℕ) (p : Fin num → Fin num_phi → ℝ) (m : ℝ)
    (dphi : ℕ → Fin nt → Fin num_phi) (dtheta : ℕ → Fin nt → Fin num) (hp : ∀ i k, 0 ≤ p i k) (hm0 : 0 ≤ m)
    (hm1 : m ≤ Real.pi) (hpos : ∀ k, 0 < ∑ i, solidWeight (fun i => p i k) m i) (hne : 0 < num_phi) :
    ∃ a, sampleAngles2 nevents p m dphi dtheta = .ok a ∧ a.rows = nevents - 1 ∧
      (∀ i j, (∃ g : Fin num, a.theta i j = linspace m Real.pi num g) ∧ m ≤ a.theta i j ∧ a.theta i j ≤ Real.pi ∧
        (∃ g : Fin num_phi, a.phi i j = linspace m (2 * Real.pi) num_phi g) ∧ m ≤ a.phi i j ∧ a.phi i j ≤ 2 * Real.pi ∧
        a.sintheta i j = Real.sin (a.theta i j) ∧ a.costheta i j = Real.cos (a.theta i j) ∧
        a.sinphi i j = Real.sin (a.phi i j) ∧ a.cosphi i j = Real.cos (a.phi i j)) ∧
      Consistent a.sintheta a.costheta a.sinphi a.cosphi := by
  have hpi := Real.pi_pos
  have hcol : ∀ k, 0 < ∑ i, p i k := by
    intro k
    refine (hpos k).trans_le (Finset.sum_le_sum fun i _ => ?_)
    exact mul_le_of_le_one_right (hp i k) (Real.sin_le_one _)
  have hok1 : choiceOk (probPhi p) := by
    refine choiceOk_of (fun k => (hcol k).le) ?_
    have : Nonempty (Fin num_phi) := ⟨⟨0, hne⟩⟩
    exact Finset.sum_pos (fun k _ => hcol k) Finset.univ_nonempty
  have hok2 : ∀ k, choiceOk (probThetaGiven p m k) := fun k =>
    choiceOk_of (fun i => mul_nonneg (hp i k) (sin_linspace_nonneg hm0 hm1 i.isLt)) (hpos k)
  refine ⟨_, by rw [sampleAngles2]; exact if_pos (Or.inr ⟨hok1, fun i j _ => hok2 _⟩), rfl, ?_, ?_⟩
  · intro i j
    have hl := linspace_mem hm1 (dtheta i j).isLt
    have hl2 := linspace_mem (show m ≤ 2 * Real.pi by linarith) (dphi i j).isLt
    exact ⟨⟨dtheta i j, rfl⟩, hl.1, hl.2, ⟨dphi i j, rfl⟩, hl2.1, hl2.2, rfl, rfl, rfl, rfl⟩
  · intro n j
    exact ⟨Real.sin_sq_add_cos_sq _, Real.sin_sq_add_cos_sq _⟩

/-- C35.  A phase function whose solid-angle weights are all zero is rejected with a ValueError rather than sampled. -/
theorem C35_sample_angles_rejects {num : ℕ} (nevents : ℕ) (p : Fin num → ℝ) (m : ℝ) (draw : ℕ → Fin nt → Fin num)
    (rand : ℕ → Fin nt → ℝ) (hz : ∀ i, solidWeight p m i = 0) (hn : 2 ≤ nevents) :
    sampleAngles1 nevents p m draw rand = .error .valueError := by
  rw [sampleAngles1]
  refine if_neg ?_
  rintro (h | h)
  · omega
  · refine not_choiceOk_of (w := fun i => solidWeight p m i * 2 * Real.pi) (fun i => by simp [hz]) (by simp [hz]) ?_
    exact h

/-- Non-vacuity of C35: the isotropic phase function on three angles. -/
example : 0 < ∑ i : Fin 3, solidWeight (fun _ => 1 / 3) 0 i := by
  have h : solidWeight (num := 3) (fun _ => 1 / 3) 0 1 = 1 / 3 := by
    have : linspace 0 Real.pi 3 ((1 : Fin 3) : ℕ) = Real.pi / 2 := by norm_num [linspace]
    rw [solidWeight, this, Real.sin_pi_div_two]; norm_num
  refine lt_of_lt_of_le ?_ (Finset.single_le_sum (f := fun i : Fin 3 => solidWeight (fun _ => 1 / 3) 0 i) (fun i _ => ?_) (Finset.mem_univ 1))
  · rw [h]; norm_num
  · exact mul_nonneg (by norm_num) (sin_linspace_nonneg le_rfl Real.pi_pos.le i.isLt)

/-! ### C71 -/

/-- C71, phase function of theta: the probability of a grid angle is its phase-function value times `sin theta` (its share of
solid angle), normalised. -/
theorem C71_theta_solid_angle_partial {num : ℕ} (p : Fin num → ℝ) (m : ℝ) (hpos : ∑ i, solidWeight p m i ≠ 0) (i : Fin num) :
    probTheta p m i = fin (solidWeight p m i / ∑ k, solidWeight p m k) := by
  have hpi := Real.pi_ne_zero
  rw [probTheta_eq, ← Finset.sum_mul, ← Finset.sum_mul, fin_div _ (by positivity), fin_inj]
  field_simp

/-- the joint probability of the cell (theta index `i`, phi index `k`) with which the 2D branch samples -/
noncomputable def jointProb {num num_phi : ℕ} (p : Fin num → Fin num_phi → ℝ) (m : ℝ) (i : Fin num) (k : Fin num_phi) : XF :=
  probPhi p k * probThetaGiven p m k i

/-- C71, phase function of theta and phi: the joint probability is the solid-angle weighted one when the phase function
factorises. -/
theorem C71_separable_partial {num num_phi : ℕ} (f : Fin num → ℝ) (g : Fin num_phi → ℝ) (m : ℝ)
    (hf : ∑ i, solidWeight f m i ≠ 0) (hf' : ∑ i, f i ≠ 0) (hg : ∑ k, g k ≠ 0) (i : Fin num) (k : Fin num_phi) (hk : g k ≠ 0) :
    jointProb (fun i k => f i * g k) m i k =
      fin (solidWeight (fun i => f i * g k) m i / ∑ k', ∑ i', solidWeight (fun i => f i * g k') m i') := by
  have e1 : ∀ k, ∑ i, f i * g k = (∑ i, f i) * g k := fun k => (Finset.sum_mul ..).symm
  have e2 : ∑ k, ∑ i, f i * g k = (∑ i, f i) * ∑ k, g k := by simp only [e1, ← Finset.mul_sum]
  have e3 : ∀ k i, solidWeight (fun i => f i * g k) m i = solidWeight f m i * g k := by
    intro k i; simp only [solidWeight]; ring
  have e4 : ∀ k, ∑ i, f i * g k * Real.sin (linspace m Real.pi num i) = (∑ i, solidWeight f m i) * g k := by
    intro k; rw [Finset.sum_mul]; exact Finset.sum_congr rfl fun i _ => e3 k i
  have e5 : ∑ k, ∑ i, solidWeight (fun i => f i * g k) m i = (∑ i, solidWeight f m i) * ∑ k, g k := by
    simp only [e3, ← Finset.sum_mul, ← Finset.mul_sum]
  have e6 : (f i * g k * Real.sin (linspace m Real.pi num i)) = solidWeight f m i * g k := e3 k i
  simp only [jointProb, probPhi, probThetaGiven]
  rw [e2, e1, e4, e5, e3, e6, fin_div _ (mul_ne_zero hf' hg), fin_div _ (mul_ne_zero hf hk), fin_mul, fin_inj]
  field_simp

/-- C71 is false of the code for a general phase function of theta and phi: the marginal of phi is taken without the
`sin theta` weight.  Here all light at the second azimuth is scattered into the pole (theta = pi, zero solid angle) except a
small part, yet that azimuth is still chosen half of the time. -/
theorem C71_joint_refuted :
    ∃ (p : Fin 3 → Fin 2 → ℝ), (∀ i k, 0 ≤ p i k) ∧ (∀ k, 0 < ∑ i, solidWeight (fun i => p i k) 0 i) ∧
      jointProb p 0 1 1 = fin (1 / 2) ∧
      solidWeight (fun i => p i 1) 0 1 / ∑ k', ∑ i', solidWeight (fun i => p i k') 0 i' = 1 / 5 := by
  have l0 : Real.sin (linspace 0 Real.pi 3 0) = 0 := by norm_num [linspace]
  have l1 : Real.sin (linspace 0 Real.pi 3 1) = 1 := by norm_num [linspace]
  have l2 : Real.sin (linspace 0 Real.pi 3 2) = 0 := by norm_num [linspace, mul_div_cancel₀]
  refine ⟨![![0, 0], ![4, 1], ![0, 3]], ?_, ?_, ?_, ?_⟩
  · intro i k; fin_cases i <;> fin_cases k <;> norm_num
  · intro k
    fin_cases k <;> simp [Fin.sum_univ_three, solidWeight, l1, l2]
  · simp [jointProb, probPhi, probThetaGiven, Fin.sum_univ_three, Fin.sum_univ_two, l1, l2, fin_div_def]
    norm_num
  · simp [Fin.sum_univ_three, Fin.sum_univ_two, solidWeight, l0, l1, l2]
    norm_num

end Verif.Props
