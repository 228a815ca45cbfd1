import Verif.Props.Sampling
import Verif.SpecStat
import Mathlib.Analysis.SpecialFunctions.Integrals.Basic

/-!
# C103: the distribution of the sampled steps
-/

namespace Verif.Props

open MeasureTheory ProbabilityTheory Verif.Spec Verif.Traj XF

variable {nt : ℕ}

private theorem meas_step (mu : ℝ) : Measurable fun u : ℝ => -Real.log (1 - u) / mu := by fun_prop

/-- the quantile transform of the uniform distribution is the exponential distribution -/
theorem map_unif_log {mu : ℝ} (hmu : 0 < mu) : unif.map (fun u => -Real.log (1 - u) / mu) = expMeasure mu := by
  haveI := isProbabilityMeasure_expMeasure hmu
  haveI : IsProbabilityMeasure (unif.map (fun u => -Real.log (1 - u) / mu)) :=
    Measure.isProbabilityMeasure_map (meas_step mu).aemeasurable
  apply Measure.eq_of_cdf
  ext s
  rw [cdf_expMeasure_eq hmu, cdf_eq_real, map_measureReal_apply (meas_step mu) measurableSet_Iic]
  unfold unif
  rw [measureReal_restrict_apply ((meas_step mu) measurableSet_Iic)]
  split_ifs with hs
  · have : (fun u : ℝ => -Real.log (1 - u) / mu) ⁻¹' Set.Iic s ∩ Set.Ico 0 1 = Set.Icc 0 (1 - Real.exp (-(mu * s))) := by
      ext u
      simp only [Set.mem_inter_iff, Set.mem_preimage, Set.mem_Iic, Set.mem_Ico, Set.mem_Icc]
      constructor
      · rintro ⟨h, h0, h1⟩
        refine ⟨h0, ?_⟩
        rw [div_le_iff₀ hmu] at h
        have := (Real.le_log_iff_exp_le (by linarith : 0 < 1 - u)).mp (by linarith : -(mu * s) ≤ Real.log (1 - u))
        linarith
      · rintro ⟨h0, h⟩
        have he := Real.exp_pos (-(mu * s))
        refine ⟨?_, h0, by linarith⟩
        rw [div_le_iff₀ hmu]
        have := (Real.le_log_iff_exp_le (by linarith : 0 < 1 - u)).mpr (by linarith)
        linarith
    rw [this]
    have he : Real.exp (-(mu * s)) ≤ 1 := Real.exp_le_one_iff.mpr (by nlinarith)
    rw [Real.volume_real_Icc_of_le (by linarith)]
    ring
  · have : (fun u : ℝ => -Real.log (1 - u) / mu) ⁻¹' Set.Iic s ∩ Set.Ico 0 1 = ∅ := by
      ext u
      simp only [Set.mem_inter_iff, Set.mem_preimage, Set.mem_Iic, Set.mem_Ico, Set.mem_empty_iff_false, iff_false]
      rintro ⟨h, h0, h1⟩
      have : 0 ≤ -Real.log (1 - u) / mu :=
        div_nonneg (by have := Real.log_nonpos (by linarith : 0 ≤ 1 - u) (by linarith); linarith) hmu.le
      exact hs (by linarith)
    rw [this]; simp

theorem mean_unif_log (mu : ℝ) :
    ∫ u, -Real.log (1 - u) / mu ∂unif = 1 / mu := by
  have h1 : ∫ u, -Real.log (1 - u) / mu ∂unif = ∫ u in (0 : ℝ)..1, -Real.log (1 - u) / mu := by
    rw [intervalIntegral.integral_of_le zero_le_one, unif, integral_Ico_eq_integral_Ioc]
  rw [h1, intervalIntegral.integral_div, intervalIntegral.integral_neg,
    intervalIntegral.integral_comp_sub_left (fun x => Real.log x) (1 : ℝ)]
  simp [integral_log]

/-- C103.  The generator delivers independent uniform numbers.  Then the steps of `sample_step` are finite lengths that are
independent of one another — over events and over trajectories — and each is exponentially distributed: with the scattering
coefficient of the sample, except that the first step of the first `round(ntraj * fine_roughness)` trajectories has the second
coefficient, when one is given.  The mean step is the reciprocal of the coefficient (the scattering length). -/
theorem C103_step_distribution {Ω : Type} [MeasurableSpace Ω] (P : Measure Ω) [IsProbabilityMeasure P]
    (U : ℕ × Fin nt → Ω → ℝ) (V : ℕ → Ω → ℝ) (hU : UniformDraws P (Sum.elim U V))
    (mu : ℝ) (mie : Option ℝ) (fr : ℝ) (hmu : 0 < mu) (hmie : ∀ m ∈ mie, 0 < m)
    (step : Ω → ℕ → Fin nt → XF)
    (hok : ∀ ω, sampleStep nt mu mie fr (fun i j => U (i, j) ω) (fun j => V j ω) = .ok (step ω)) :
    ∃ x : ℕ × Fin nt → Ω → ℝ,
      (∀ ω i j, step ω i j = fin (x (i, j) ω)) ∧
      iIndepFun x P ∧
      (∀ i j, ∀ m ∈ mie, i = 0 → (j.val : ℤ) < pyRound (nt * fr) →
        P.map (x (i, j)) = expMeasure m ∧ ∫ ω, x (i, j) ω ∂P = 1 / m) ∧
      (∀ i j, (mie = none ∨ i ≠ 0 ∨ pyRound (nt * fr) ≤ j.val) →
        P.map (x (i, j)) = expMeasure mu ∧ ∫ ω, x (i, j) ω ∂P = 1 / mu) := by
  classical
  -- which draw and which coefficient a step uses
  let special : ℕ × Fin nt → Prop := fun p => mie.isSome ∧ p.1 = 0 ∧ (p.2.val : ℤ) < pyRound (nt * fr)
  let idx : ℕ × Fin nt → (ℕ × Fin nt) ⊕ ℕ := fun p => if special p then .inr p.2.val else .inl p
  let rate : ℕ × Fin nt → ℝ := fun p => if special p then mie.getD mu else mu
  have hrate : ∀ p, 0 < rate p := by
    intro p
    simp only [rate]
    split_ifs
    · cases mie with
      | none => exact hmu
      | some m => exact hmie m rfl
    · exact hmu
  have hidx : Function.Injective idx := by
    rintro ⟨i, j⟩ ⟨i', j'⟩ h
    by_cases h1 : special (i, j) <;> by_cases h2 : special (i', j') <;> simp only [idx, h1, h2, if_true, if_false] at h
    · have hj : j = j' := Fin.ext (Sum.inr.inj h)
      have hi : i = 0 := h1.2.1
      have hi' : i' = 0 := h2.2.1
      rw [hj, hi, hi']
    · cases h
    · cases h
    · exact Sum.inl.inj h
  let x : ℕ × Fin nt → Ω → ℝ := fun p ω => -Real.log (1 - Sum.elim U V (idx p) ω) / rate p
  have hcomp : ∀ p, x p = (fun u => -Real.log (1 - u) / rate p) ∘ Sum.elim U V (idx p) := fun _ => rfl
  have hlaw : ∀ p, P.map (x p) = expMeasure (rate p) := by
    intro p
    rw [hcomp, ← Measure.map_map (meas_step _) (hU.meas _), hU.law, map_unif_log (hrate p)]
  have hmean : ∀ p, ∫ ω, x p ω ∂P = 1 / rate p := by
    intro p
    rw [← mean_unif_log (rate p), ← hU.law (idx p), integral_map (hU.meas _).aemeasurable]
    exact (meas_step _).aestronglyMeasurable
  refine ⟨x, ?_, ?_, ?_, ?_⟩
  · intro ω i j
    have h := hok ω
    simp only [sampleStep] at h
    split_ifs at h with hb
    cases mie with
    | none =>
      simp only [Except.ok.injEq] at h
      rw [← h]
      simp only [x, idx, rate, special, Option.isSome_none, Bool.false_eq_true, false_and, if_false, Sum.elim_inl]
      exact fin_div _ hmu.ne'
    | some m =>
      simp only [Except.ok.injEq] at h
      rw [← h]
      simp only [x, idx, rate, special, Option.isSome_some, true_and, Option.getD_some]
      have hiff : (i = 0 ∧ j.val < (pyRound (nt * fr)).toNat) ↔ (i = 0 ∧ (j.val : ℤ) < pyRound (nt * fr)) := by
        constructor <;> rintro ⟨a, b⟩ <;> exact ⟨a, by omega⟩
      by_cases hs : i = 0 ∧ (j.val : ℤ) < pyRound (nt * fr)
      · rw [if_pos (hiff.mpr hs), if_pos hs, if_pos hs]
        exact fin_div _ (hmie m rfl).ne'
      · rw [if_neg (fun hh => hs (hiff.mp hh)), if_neg hs, if_neg hs]
        exact fin_div _ hmu.ne'
  · have := (hU.indep.precomp hidx).comp (fun p u => -Real.log (1 - u) / rate p) (fun p => meas_step _)
    exact this
  · intro i j m hm hi hj
    have hs : special (i, j) := ⟨by rw [Option.mem_def] at hm; simp [hm], hi, hj⟩
    have hr : rate (i, j) = m := by
      simp only [rate, if_pos hs]
      rw [Option.mem_def] at hm; simp [hm]
    exact ⟨hr ▸ hlaw (i, j), hr ▸ hmean (i, j)⟩
  · intro i j hor
    have hs : ¬ special (i, j) := by
      rintro ⟨h1, h2, h3⟩
      rcases hor with h | h | h
      · rw [h] at h1; cases h1
      · exact h h2
      · simp only at h3; omega
    have hr : rate (i, j) = mu := by simp only [rate, if_neg hs]
    exact ⟨hr ▸ hlaw (i, j), hr ▸ hmean (i, j)⟩

/-- C103, in words of light: the fraction of photons that travel further than `s` before they are scattered is
`exp(-mu s)`, for every event and trajectory of a sample without fine roughness. -/
theorem C103_unscattered_fraction {Ω : Type} [MeasurableSpace Ω] (P : Measure Ω) [IsProbabilityMeasure P]
    (U : ℕ × Fin nt → Ω → ℝ) (V : ℕ → Ω → ℝ) (hU : UniformDraws P (Sum.elim U V))
    (mu : ℝ) (hmu : 0 < mu) (step : Ω → ℕ → Fin nt → XF)
    (hok : ∀ ω, sampleStep nt mu none 0 (fun i j => U (i, j) ω) (fun j => V j ω) = .ok (step ω))
    (i : ℕ) (j : Fin nt) (s : ℝ) (hs : 0 ≤ s) :
    P.real {ω | fin s < step ω i j} = Real.exp (-(mu * s)) := by
  obtain ⟨x, hx, -, -, hlaw⟩ := C103_step_distribution P U V hU mu none 0 hmu (by simp) step hok
  obtain ⟨h, -⟩ := hlaw i j (Or.inl rfl)
  haveI := isProbabilityMeasure_expMeasure hmu
  have hmx : AEMeasurable (x (i, j)) P := by
    by_contra hc
    rw [Measure.map_of_not_aemeasurable hc] at h
    have : (expMeasure mu) Set.univ = 0 := by rw [← h]; simp
    rw [measure_univ] at this
    exact one_ne_zero this
  have hset : {ω | fin s < step ω i j} = x (i, j) ⁻¹' (Set.Iic s)ᶜ := by
    ext ω; simp [hx]
  rw [hset, Measure.real, ← Measure.map_apply_of_aemeasurable hmx measurableSet_Iic.compl, h, ← Measure.real,
    probReal_compl_eq_one_sub measurableSet_Iic, ← cdf_eq_real, cdf_expMeasure_eq hmu, if_pos hs]
  ring

/-- The hypotheses of C103 are met: independent uniform streams exist, and `sample_step` then always succeeds. -/
example : ∃ (Ω : Type) (_ : MeasurableSpace Ω) (P : Measure Ω) (U : ℕ × Fin 3 → Ω → ℝ) (V : ℕ → Ω → ℝ)
    (step : Ω → ℕ → Fin 3 → XF), IsProbabilityMeasure P ∧ UniformDraws P (Sum.elim U V) ∧
    ∀ ω, sampleStep 3 2 (some 5) (1 / 2) (fun i j => U (i, j) ω) (fun j => V j ω) = .ok (step ω) := by
  obtain ⟨Ω, mΩ, P, W, hP, hW⟩ := uniformDraws_exist ((ℕ × Fin 3) ⊕ ℕ)
  have hel : Sum.elim (fun p => W (.inl p)) (fun n => W (.inr n)) = W := by ext (p | n) ω <;> rfl
  choose step hstep using fun ω => (C34_sample_step_error (nt := 3) 2 (some 5) (1 / 2) (fun i j => W (.inl (i, j)) ω)
    (fun j => W (.inr j) ω)).2 (by norm_num)
  exact ⟨Ω, mΩ, P, fun p => W (.inl p), fun n => W (.inr n), step, hP, hel.symm ▸ hW, hstep⟩

end Verif.Props
