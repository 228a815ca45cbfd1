import Verif.Props.Persistence
import Verif.Props.Statistics

/-!
# C108: mean position after many steps
-/

namespace Verif.Props

open MeasureTheory ProbabilityTheory Verif.Spec Verif.Traj XF

variable {nt : ℕ}

/-- what is known when the numbers with index in `T` are known -/
@[reducible] def sigOf {Ω ι : Type} (W : ι → Ω → ℝ) (T : Set ι) : MeasurableSpace Ω :=
  ⨆ y ∈ T, MeasurableSpace.comap (W y) inferInstance

theorem dir_measurable {Ω : Type} [MeasurableSpace Ω] (nevents : ℕ) (kn : ℕ → Fin nt → V3) (st ct sp cp : Ω → ℕ → Fin nt → ℝ) (j : Fin nt)
    (h1 : ∀ e, Measurable fun ω => st ω e j) (h2 : ∀ e, Measurable fun ω => ct ω e j) (h3 : ∀ e, Measurable fun ω => sp ω e j)
    (h4 : ∀ e, Measurable fun ω => cp ω e j) (e : ℕ) (he : e < nevents) :
    Measurable (fun ω => (scatter nevents kn (st ω) (ct ω) (sp ω) (cp ω) e j).x) ∧
    Measurable (fun ω => (scatter nevents kn (st ω) (ct ω) (sp ω) (cp ω) e j).y) ∧
    Measurable (fun ω => (scatter nevents kn (st ω) (ct ω) (sp ω) (cp ω) e j).z) := by
  induction e with
  | zero =>
    have : ∀ ω, scatter nevents kn (st ω) (ct ω) (sp ω) (cp ω) 0 j = kn 0 j := fun ω =>
      congrFun (scatter_loop kn (st ω) (ct ω) (sp ω) (cp ω) (nevents - 1)).1 j
    simp only [this]
    exact ⟨measurable_const, measurable_const, measurable_const⟩
  | succ e ih =>
    have : ∀ ω, scatter nevents kn (st ω) (ct ω) (sp ω) (cp ω) (e + 1) j = turn (st ω e j) (ct ω e j) (sp ω e j) (cp ω e j)
        (scatter nevents kn (st ω) (ct ω) (sp ω) (cp ω) e j) := fun ω =>
      (scatter_loop kn (st ω) (ct ω) (sp ω) (cp ω) (nevents - 1)).2.1 e (by omega) j
    obtain ⟨a, b, c⟩ := ih (by omega)
    have h1 := h1 e
    have h2 := h2 e
    have h3 := h3 e
    have h4 := h4 e
    simp only [this, turn]
    exact ⟨(((a.mul h2).add (c.mul h1)).mul h4).sub (b.mul h3), (((a.mul h2).add (c.mul h1)).mul h3).add (b.mul h4),
      (a.neg.mul h1).add (c.mul h2)⟩

/-- C108.  With independent uniform numbers from the generator, light incident along z and a phase function of theta, the mean
lateral position after any number of steps is the starting point, and the mean depth after `n` steps has grown by
`(1 + g + ... + g^(n-1)) / mu_scat`, with `g` the average cosine of the scattering angle: partial sums of the transport
length `1 / (mu_scat (1 - g))`. -/
theorem C108_mean_position {Ω : Type} [mΩ : MeasurableSpace Ω] (P : Measure Ω) [IsProbabilityMeasure P] {n : ℕ}
    (A : (ℕ × Fin nt) × Fin 2 → Ω → ℝ) (S : ℕ × Fin nt → Ω → ℝ) (V : ℕ → Ω → ℝ)
    (hU : UniformDraws P (Sum.elim A (Sum.elim S V))) (nevents : ℕ) (p : Fin (n + 1) → ℝ) (m mu : ℝ)
    (hp : ∀ k, 0 ≤ p k) (hm0 : 0 ≤ m) (hm1 : m < Real.pi) (hmu : 0 < mu)
    (hpos : 0 < ∑ k, p k * Real.sin (gridAngle m Real.pi n k))
    (ang : Ω → Angles nt) (step : Ω → ℕ → Fin nt → ℝ)
    (hang : ∀ ω, sampleAnglesRng1 nevents p m (fun i j => A ((i, j), 0) ω) (fun i j => A ((i, j), 1) ω) = .ok (ang ω))
    (hstep : ∀ ω, sampleStep nt mu none 0 (fun i j => S (i, j) ω) (fun j => V j ω) = .ok fun i j => fin (step ω i j))
    (kn p0 : ℕ → Fin nt → V3) (j : Fin nt) (hkn : kn 0 j = ⟨0, 0, 1⟩) (pos : Ω → ℕ → Fin nt → V3)
    (hpos' : ∀ ω, pos ω = move p0 (step ω)
      (scatter nevents kn (ang ω).sintheta (ang ω).costheta (ang ω).sinphi (ang ω).cosphi))
    (e : ℕ) (he : e ≤ nevents) :
    ∫ ω, (pos ω e j).x ∂P = (p0 0 j).x ∧ ∫ ω, (pos ω e j).y ∂P = (p0 0 j).y ∧
    ∫ ω, (pos ω e j).z ∂P = (p0 0 j).z + 1 / mu * ∑ i ∈ Finset.range e, meanOver p m Real.cos ^ i := by
  classical
  have hA : UniformDraws P A := ⟨fun i => hU.meas (Sum.inl i), fun i => hU.law (Sum.inl i), iIndepFun.precomp (g := Sum.inl) Sum.inl_injective hU.indep⟩
  have hSV : UniformDraws P (Sum.elim S V) :=
    ⟨fun i => hU.meas (Sum.inr i), fun i => hU.law (Sum.inr i), iIndepFun.precomp (g := Sum.inr) Sum.inr_injective hU.indep⟩
  obtain ⟨k, hk⟩ : ∃ k : Ω → ℕ → Fin nt → V3, k = fun ω => scatter nevents kn (ang ω).sintheta (ang ω).costheta (ang ω).sinphi
    (ang ω).cosphi := ⟨_, rfl⟩
  have hmean := fun e he => C107_mean_direction_partial P A hA nevents p m hp hm0 hm1 hpos ang hang kn j hkn (fun e ω => k ω e j)
    (fun e ω => by rw [hk]) e he
  obtain ⟨x, hx, -, -, hlaw⟩ := C103_step_distribution P S V hSV mu none 0 hmu (by simp) (fun ω i j => fin (step ω i j)) hstep
  have hxs : ∀ ω i, step ω i j = x (i, j) ω := fun ω i => by
    have := hx ω i j
    rw [fin_inj] at this; exact this
  have hsx : ∀ ω i, step ω i j = -Real.log (1 - S (i, j) ω) / mu := fun ω i => by
    have h := hstep ω
    simp only [sampleStep] at h
    rw [if_neg (by norm_num)] at h
    injection h with h
    have := congrFun (congrFun h i) j
    rw [fin_div _ hmu.ne', fin_inj] at this
    exact this.symm
  -- directions are determined by the numbers used for angles
  have hAm : ∀ y, Measurable[(sigOf (Sum.elim A (Sum.elim S V)) (Set.range Sum.inl))] (A y) := fun y => by
    have h1 : Measurable[MeasurableSpace.comap (A y) inferInstance] (A y) := comap_measurable _
    exact h1.mono (le_iSup₂_of_le (f := fun y (_ : y ∈ Set.range Sum.inl) => MeasurableSpace.comap (Sum.elim A (Sum.elim S V) y) inferInstance)
      (Sum.inl y) ⟨y, rfl⟩ le_rfl) le_rfl
  have hang' := fun ω => ang_eq hang ω
  obtain ⟨K, hK⟩ : ∃ K : ℝ → Fin (n + 1), K = choiceIndex (probTheta p m) := ⟨_, rfl⟩
  have hmK : Measurable K := hK ▸ measurable_choiceIndex _
  simp only [← hK] at hang'
  have hthm : ∀ i, Measurable[(sigOf (Sum.elim A (Sum.elim S V)) (Set.range Sum.inl))] fun ω => (ang ω).theta i j := fun i => by
    simp only [fun ω => (hang' ω).1 i j]
    exact (measurable_of_finite (gridAngle m Real.pi n)).comp (hmK.comp (hAm _))
  have hphm : ∀ i, Measurable[(sigOf (Sum.elim A (Sum.elim S V)) (Set.range Sum.inl))] fun ω => (ang ω).phi i j := fun i => by
    simp only [fun ω => (hang' ω).2.1 i j]
    exact (hAm _).const_mul _
  have hkm : ∀ i, i < nevents → Measurable[(sigOf (Sum.elim A (Sum.elim S V)) (Set.range Sum.inl))] (fun ω => (k ω i j).x) ∧ Measurable[(sigOf (Sum.elim A (Sum.elim S V)) (Set.range Sum.inl))] (fun ω => (k ω i j).y) ∧
      Measurable[(sigOf (Sum.elim A (Sum.elim S V)) (Set.range Sum.inl))] (fun ω => (k ω i j).z) := by
    intro i hi
    rw [hk]
    refine @dir_measurable nt Ω (sigOf (Sum.elim A (Sum.elim S V)) (Set.range Sum.inl)) nevents kn (fun ω => (ang ω).sintheta) (fun ω => (ang ω).costheta) (fun ω => (ang ω).sinphi)
      (fun ω => (ang ω).cosphi) j ?_ ?_ ?_ ?_ i hi
    · intro i; simp only [fun ω => (hang' ω).2.2.1]; exact Real.measurable_sin.comp (hthm i)
    · intro i; simp only [fun ω => (hang' ω).2.2.2.1]; exact Real.measurable_cos.comp (hthm i)
    · intro i; simp only [fun ω => (hang' ω).2.2.2.2.1]; exact Real.measurable_sin.comp (hphm i)
    · intro i; simp only [fun ω => (hang' ω).2.2.2.2.2]; exact Real.measurable_cos.comp (hphm i)
  have hunit : ∀ ω i, i < nevents → (k ω i j).x ^ 2 + (k ω i j).y ^ 2 + (k ω i j).z ^ 2 = 1 := by
    intro ω i hi
    have hcons : Consistent (ang ω).sintheta (ang ω).costheta (ang ω).sinphi (ang ω).cosphi := by
      intro a b
      rw [(hang' ω).2.2.1, (hang' ω).2.2.2.1, (hang' ω).2.2.2.2.1, (hang' ω).2.2.2.2.2]
      exact ⟨Real.sin_sq_add_cos_sq _, Real.sin_sq_add_cos_sq _⟩
    have h := (C32_scatter_unit nevents kn _ _ _ _ hcons).2.1 i j hi
    rw [hkn] at h
    rw [hk]
    simp only [V3.normSq, V3.dot] at h
    nlinarith [h]
  have hsle : sigOf (Sum.elim A (Sum.elim S V)) (Set.range Sum.inl) ≤ mΩ := iSup₂_le fun y _ => (hU.meas y).comap_le
  -- a step and a bounded quantity determined by the angles
  have hxm : ∀ i, Measurable fun ω => step ω i j := fun i => by
    simp only [hsx]
    have := hSV.meas (Sum.inl (i, j))
    exact ((Real.measurable_log.comp (measurable_const.sub this)).neg).div_const _
  have hxmean : ∀ i, ∫ ω, step ω i j ∂P = 1 / mu := fun i => by
    simp only [hxs]; exact (hlaw i j (Or.inl rfl)).2
  have hxint : ∀ i, Integrable (fun ω => step ω i j) P := fun i => by
    refine Integrable.of_integral_ne_zero ?_
    rw [hxmean]
    positivity
  have hprod : ∀ i (f : Ω → ℝ), Measurable[(sigOf (Sum.elim A (Sum.elim S V)) (Set.range Sum.inl))] f → (∀ ω, |f ω| ≤ 1) →
      Integrable (fun ω => step ω i j * f ω) P ∧ ∫ ω, step ω i j * f ω ∂P = 1 / mu * ∫ ω, f ω ∂P := by
    intro i f hf hb
    have hf' : Measurable f := hf.mono hsle le_rfl
    have hint : Integrable (fun ω => step ω i j * f ω) P :=
      (hxint i).mul_bdd (c := 1) hf'.aestronglyMeasurable (Filter.Eventually.of_forall hb)
    refine ⟨hint, ?_⟩
    have hind : Indep (⨆ y ∈ ({Sum.inr (Sum.inl (i, j))} : Set (((ℕ × Fin nt) × Fin 2) ⊕ ((ℕ × Fin nt) ⊕ ℕ))),
        MeasurableSpace.comap (Sum.elim A (Sum.elim S V) y) inferInstance) (sigOf (Sum.elim A (Sum.elim S V)) (Set.range Sum.inl)) P :=
      indep_iSup_of_disjoint (fun y => (hU.meas y).comap_le) hU.indep (by
        rw [Set.disjoint_singleton_left]; rintro ⟨y, hy⟩; exact absurd hy Sum.inl_ne_inr)
    have hi2 : IndepFun (fun ω => step ω i j) f P := by
      refine indep_of_indep_of_le_left (indep_of_indep_of_le_right hind hf.comap_le) ?_
      have hS : Measurable[MeasurableSpace.comap (S (i, j)) inferInstance] (S (i, j)) := comap_measurable _
      have hx' : Measurable[MeasurableSpace.comap (S (i, j)) inferInstance] fun ω => step ω i j := by
        simp only [hsx]
        exact ((Real.measurable_log.comp (measurable_const.sub hS)).neg).div_const _
      refine hx'.comap_le.trans ?_
      exact le_iSup₂_of_le (f := fun y (_ : y ∈ ({Sum.inr (Sum.inl (i, j))} : Set (((ℕ × Fin nt) × Fin 2) ⊕ ((ℕ × Fin nt) ⊕ ℕ)))) =>
        MeasurableSpace.comap (Sum.elim A (Sum.elim S V) y) inferInstance) _ rfl le_rfl
    rw [hi2.integral_fun_mul_eq_mul_integral (hxm i).aestronglyMeasurable hf'.aestronglyMeasurable, hxmean]
  -- positions as sums
  have hsum : ∀ ω, ∀ i, (pos ω i j).x = (p0 0 j).x + ∑ l ∈ Finset.range i, step ω l j * (k ω l j).x ∧
      (pos ω i j).y = (p0 0 j).y + ∑ l ∈ Finset.range i, step ω l j * (k ω l j).y ∧
      (pos ω i j).z = (p0 0 j).z + ∑ l ∈ Finset.range i, step ω l j * (k ω l j).z := by
    intro ω i
    rw [hpos', show scatter nevents kn (ang ω).sintheta (ang ω).costheta (ang ω).sinphi (ang ω).cosphi = k ω by rw [hk]]
    induction i with
    | zero => simp [move, cumsum, displacement]
    | succ i ih =>
      have hm := (C33_move_steps p0 (step ω) (k ω) i j).2
      have h1 := congrArg V3.x hm
      have h2 := congrArg V3.y hm
      have h3 := congrArg V3.z hm
      simp only [V3.sub, V3.smul] at h1 h2 h3
      simp only [Finset.sum_range_succ]
      refine ⟨?_, ?_, ?_⟩
      · linarith [ih.1]
      · linarith [ih.2.1]
      · linarith [ih.2.2]
  have hb : ∀ i, i < nevents → ∀ ω, |(k ω i j).x| ≤ 1 ∧ |(k ω i j).y| ≤ 1 ∧ |(k ω i j).z| ≤ 1 := by
    intro i hi ω
    have h := hunit ω i hi
    refine ⟨?_, ?_, ?_⟩ <;>
    · rw [← sq_le_one_iff_abs_le_one]
      nlinarith [sq_nonneg (k ω i j).x, sq_nonneg (k ω i j).y, sq_nonneg (k ω i j).z]
  have hfinal : ∀ (c : ℝ) (f : ℕ → Ω → ℝ) (v : ℕ → ℝ), (∀ i, i < nevents → Measurable[(sigOf (Sum.elim A (Sum.elim S V)) (Set.range Sum.inl))] (f i) ∧ (∀ ω, |f i ω| ≤ 1) ∧ ∫ ω, f i ω ∂P = v i) →
      ∫ ω, (c + ∑ l ∈ Finset.range e, step ω l j * f l ω) ∂P = c + 1 / mu * ∑ i ∈ Finset.range e, v i := by
    intro c f v hf
    have hi : ∀ l ∈ Finset.range e, Integrable (fun ω => step ω l j * f l ω) P := fun l hl => by
      obtain ⟨a, b, -⟩ := hf l ((Finset.mem_range.mp hl).trans_le he)
      exact (hprod l (f l) a b).1
    rw [integral_add (integrable_const _) (integrable_finsetSum _ hi), integral_finsetSum _ hi, Finset.mul_sum]
    congr 1
    · simp
    · refine Finset.sum_congr rfl fun l hl => ?_
      obtain ⟨a, b, d⟩ := hf l ((Finset.mem_range.mp hl).trans_le he)
      rw [(hprod l (f l) a b).2, d]
  refine ⟨?_, ?_, ?_⟩
  · simp only [fun ω => (hsum ω e).1]
    rw [hfinal _ (fun l ω => (k ω l j).x) (fun _ => 0) (fun i hi => ⟨(hkm i hi).1, fun ω => (hb i hi ω).1, (hmean i hi).1⟩)]
    simp
  · simp only [fun ω => (hsum ω e).2.1]
    rw [hfinal _ (fun l ω => (k ω l j).y) (fun _ => 0) (fun i hi => ⟨(hkm i hi).2.1, fun ω => (hb i hi ω).2.1, (hmean i hi).2.1⟩)]
    simp
  · simp only [fun ω => (hsum ω e).2.2]
    exact hfinal _ (fun l ω => (k ω l j).z) _ (fun i hi => ⟨(hkm i hi).2.2, fun ω => (hb i hi ω).2.2, (hmean i hi).2.2⟩)

/-- a phase function on four angles that scatters by exactly 60 degrees -/
theorem sixty : ∃ p : Fin 4 → ℝ, (∀ k, 0 ≤ p k) ∧ 0 < ∑ k, p k * Real.sin (gridAngle 0 Real.pi 3 k) ∧
    (∀ f : ℝ → ℝ, meanOver p 0 f = f (Real.pi / 3)) ∧ choiceOk (probTheta p 0) := by
  obtain ⟨p, hpd⟩ : ∃ p : Fin 4 → ℝ, p = fun k => if k = 1 then 1 else 0 := ⟨_, rfl⟩
  have hp : ∀ k, 0 ≤ p k := fun k => by simp only [hpd]; split <;> norm_num
  have g1 : gridAngle 0 Real.pi 3 1 = Real.pi / 3 := by norm_num [gridAngle]
  have hs3 : 0 < Real.sin (Real.pi / 3) := Real.sin_pos_of_pos_of_lt_pi (by positivity) (by linarith [Real.pi_pos])
  have hsum : ∀ f : ℝ → ℝ, ∑ k, p k * Real.sin (gridAngle 0 Real.pi 3 k) * f (gridAngle 0 Real.pi 3 k) =
      Real.sin (Real.pi / 3) * f (Real.pi / 3) := by
    intro f
    rw [Finset.sum_eq_single 1 (fun k _ hk => by simp only [hpd, if_neg hk]; ring) (fun h => absurd (Finset.mem_univ _) h), g1]
    simp [hpd]
  have hsum1 : ∑ k, p k * Real.sin (gridAngle 0 Real.pi 3 k) = Real.sin (Real.pi / 3) := by
    have := hsum fun _ => 1
    simpa using this
  have hpos : 0 < ∑ k, p k * Real.sin (gridAngle 0 Real.pi 3 k) := by rw [hsum1]; exact hs3
  refine ⟨p, hp, hpos, fun f => by rw [meanOver, hsum, hsum1]; field_simp, ?_⟩
  refine choiceOk_of (w := fun i : Fin 4 => solidWeight p 0 i * 2 * Real.pi) (fun i => ?_) ?_
  · have := sin_linspace_nonneg (le_refl 0) Real.pi_pos.le i.isLt
    have h2 : 0 ≤ solidWeight p 0 i := mul_nonneg (hp i) this
    have := Real.pi_pos
    positivity
  · rw [← Finset.sum_mul, ← Finset.sum_mul]
    have hsw : ∀ i, solidWeight p 0 i = p i * Real.sin (gridAngle 0 Real.pi 3 i) := fun i => by rw [solidWeight, linspace_grid]
    simp only [hsw]
    exact mul_pos (mul_pos hpos two_pos) Real.pi_pos

/-- Non-vacuity of C108: scattering by 60 degrees with coefficient 2, from the origin: the mean depth after three steps is
`(1 + 1/2 + 1/4) / 2`. -/
example : ∃ (Ω : Type) (_ : MeasurableSpace Ω) (P : Measure Ω) (A : (ℕ × Fin 4) × Fin 2 → Ω → ℝ) (S : ℕ × Fin 4 → Ω → ℝ)
    (p : Fin 4 → ℝ) (ang : Ω → Angles 4) (step : Ω → ℕ → Fin 4 → ℝ), UniformDraws P (Sum.elim A S) ∧
    (∀ ω, sampleAnglesRng1 5 p 0 (fun i j => A ((i, j), 0) ω) (fun i j => A ((i, j), 1) ω) = .ok (ang ω)) ∧
    (∀ ω, sampleStep 4 2 none 0 (fun i j => S (i, j) ω) (fun _ => 0) = .ok fun i j => fin (step ω i j)) ∧
    ∫ ω, (move (fun _ _ => ⟨0, 0, 0⟩) (step ω) (scatter 5 (fun _ _ => ⟨0, 0, 1⟩) (ang ω).sintheta (ang ω).costheta
      (ang ω).sinphi (ang ω).cosphi) 3 0).z ∂P = 7 / 8 := by
  obtain ⟨Ω, mΩ, P, W, hP, hW⟩ := uniformDraws_exist (((ℕ × Fin 4) × Fin 2) ⊕ ((ℕ × Fin 4) ⊕ ℕ))
  obtain ⟨p, hp, hpos, hmean, hch⟩ := sixty
  have hrun' : ∀ ω, ∃ a, sampleAnglesRng1 (n := 3) 5 p 0 (fun i j => W (Sum.inl ((i, j), 0)) ω) (fun i j => W (Sum.inl ((i, j), 1)) ω) = .ok a :=
    fun ω => ⟨_, if_pos (Or.inr hch)⟩
  choose ang hrun using hrun'
  obtain ⟨step, hst⟩ : ∃ step : Ω → ℕ → Fin 4 → ℝ, step = fun ω i j => -Real.log (1 - W (Sum.inr (Sum.inl (i, j))) ω) / 2 := ⟨_, rfl⟩
  have hsr : ∀ (r : ℕ → ℝ) ω, sampleStep 4 2 none 0 (fun i j => W (Sum.inr (Sum.inl (i, j))) ω) r = .ok fun i j => fin (step ω i j) := by
    intro r ω
    simp only [sampleStep]
    rw [if_neg (by norm_num), hst]
    congr 1
    funext i j
    rw [fin_div _ (by norm_num)]
  have hWe : Sum.elim (fun i => W (Sum.inl i)) (Sum.elim (fun i => W (Sum.inr (Sum.inl i))) (fun i => W (Sum.inr (Sum.inr i)))) = W := by
    funext i; rcases i with i | i | i <;> rfl
  have h := (C108_mean_position P (fun i => W (Sum.inl i)) (fun i => W (Sum.inr (Sum.inl i))) (fun i => W (Sum.inr (Sum.inr i)))
    (hWe.symm ▸ hW) 5 p 0 2 hp le_rfl Real.pi_pos two_pos hpos ang step hrun (fun ω => hsr _ ω) (fun _ _ => ⟨0, 0, 1⟩)
    (fun _ _ => ⟨0, 0, 0⟩) 0 rfl _ (fun _ => rfl) 3 (by norm_num)).2.2
  refine ⟨Ω, mΩ, P, fun i => W (Sum.inl i), fun i => W (Sum.inr (Sum.inl i)), p, ang, step, ?_, hrun, fun ω => hsr _ ω, ?_⟩
  · refine ⟨fun i => ?_, fun i => ?_, ?_⟩
    · rcases i with i | i <;> exact hW.meas _
    · rcases i with i | i <;> exact hW.law _
    · have hinj : Function.Injective (Sum.map id Sum.inl : ((ℕ × Fin 4) × Fin 2) ⊕ (ℕ × Fin 4) → ((ℕ × Fin 4) × Fin 2) ⊕ ((ℕ × Fin 4) ⊕ ℕ)) :=
        Sum.map_injective.mpr ⟨Function.injective_id, Sum.inl_injective⟩
      have h1 := iIndepFun.precomp hinj hW.indep
      have h2 : (W ∘ Sum.map id Sum.inl) = Sum.elim (fun i => W (Sum.inl i)) fun i => W (Sum.inr (Sum.inl i)) := by
        funext i; rcases i with i | i <;> rfl
      rw [← h2]
      exact h1
  · refine h.trans ?_
    rw [hmean, Real.cos_pi_div_three]
    norm_num [Finset.sum_range_succ]

end Verif.Props
