import Verif.Props.MeanDepth
import Verif.Props.DirectionLaw
import Mathlib.Analysis.SpecificLimits.Normed
import Mathlib.Analysis.Asymptotics.SpecificAsymptotics

/-!
# C125: how far light gets: mean squared displacement and diffusion
-/

namespace Verif.Props

open MeasureTheory ProbabilityTheory Verif.Spec Verif.Traj XF

/-- the second moment of the exponential distribution -/
theorem exp_second_moment {mu : ℝ} (hmu : 0 < mu) : ∫ x, x ^ 2 ∂(expMeasure mu) = 2 / mu ^ 2 := by
  have hpdf : ∀ x, (gammaPDF 1 mu x).toReal = if 0 ≤ x then mu * Real.exp (-(mu * x)) else 0 := by
    intro x
    rw [gammaPDF, ENNReal.toReal_ofReal (gammaPDFReal_nonneg one_pos hmu x), gammaPDFReal]
    split_ifs <;> simp
  unfold expMeasure gammaMeasure
  have hm : Measurable (gammaPDF 1 mu) := (measurable_gammaPDFReal 1 mu).ennreal_ofReal
  rw [integral_withDensity_eq_integral_toReal_smul hm
    (Filter.Eventually.of_forall fun x => ENNReal.ofReal_lt_top)]
  have h1 : (fun x : ℝ => (gammaPDF 1 mu x).toReal • x ^ 2) = Set.indicator (Set.Ici 0) fun x => mu * (x ^ ((3 : ℝ) - 1) * Real.exp (-(mu * x))) := by
    funext x
    rw [hpdf, smul_eq_mul]
    by_cases hx : 0 ≤ x
    · rw [if_pos hx, Set.indicator_of_mem (by exact hx)]
      have : (3 : ℝ) - 1 = (2 : ℕ) := by norm_num
      rw [this, Real.rpow_natCast]; ring
    · rw [if_neg hx, Set.indicator_of_notMem (by exact hx), zero_mul]
  rw [h1, integral_indicator measurableSet_Ici, integral_Ici_eq_integral_Ioi, integral_const_mul,
    Real.integral_rpow_mul_exp_neg_mul_Ioi (by norm_num) hmu]
  have h3 : Real.Gamma 3 = 2 := by
    rw [show (3 : ℝ) = ((2 : ℕ) : ℝ) + 1 by norm_num, Real.Gamma_nat_eq_factorial]; norm_num
  have h4 : (1 / mu) ^ (3 : ℝ) = (1 / mu) ^ 3 := by
    rw [show (3 : ℝ) = ((3 : ℕ) : ℝ) by norm_num, Real.rpow_natCast]
  rw [h3, h4]
  field_simp

section general

variable {Ω ι : Type} [mΩ : MeasurableSpace Ω] {P : Measure Ω} [IsProbabilityMeasure P]

/-- A walk with exponential steps that are independent of the directions: its mean squared displacement from the correlations of
the directions. -/
theorem msd_general (W : ι → Ω → ℝ) (hW : UniformDraws P W) (T : Set ι) (s : ℕ → ι) (hs : Function.Injective s) (hT : ∀ i, s i ∉ T)
    {mu : ℝ} (hmu : 0 < mu) (k : ℕ → Ω → V3) (N : ℕ)
    (hkm : ∀ i, i < N → Measurable[sigOf W T] (fun ω => (k i ω).x) ∧ Measurable[sigOf W T] (fun ω => (k i ω).y) ∧
      Measurable[sigOf W T] (fun ω => (k i ω).z))
    (hunit : ∀ i, i < N → ∀ ω, (k i ω).x ^ 2 + (k i ω).y ^ 2 + (k i ω).z ^ 2 = 1)
    (c : ℕ → ℕ → ℝ) (hc : ∀ i l, i < l → l < N → ∫ ω, V3.dot (k i ω) (k l ω) ∂P = c i l)
    (r : ℕ → Ω → V3) (hr0 : ∀ ω, r 0 ω = ⟨0, 0, 0⟩)
    (hr : ∀ e ω, r (e + 1) ω = ⟨(r e ω).x + -Real.log (1 - W (s e) ω) / mu * (k e ω).x,
      (r e ω).y + -Real.log (1 - W (s e) ω) / mu * (k e ω).y, (r e ω).z + -Real.log (1 - W (s e) ω) / mu * (k e ω).z⟩)
    (e : ℕ) (he : e ≤ N) :
    ∫ ω, V3.normSq (r e ω) ∂P = 2 / mu ^ 2 * ∑ l ∈ Finset.range e, (1 + ∑ i ∈ Finset.range l, c i l) := by
  classical
  obtain ⟨L, hL⟩ : ∃ L : ℕ → Ω → ℝ, ∀ i ω, -Real.log (1 - W (s i) ω) / mu = L i ω := ⟨_, fun _ _ => rfl⟩
  have hsig : ∀ A : Set ι, sigOf W A ≤ mΩ := fun A => iSup₂_le fun y _ => (hW.meas y).comap_le
  have hmono : ∀ {A B : Set ι}, A ⊆ B → sigOf W A ≤ sigOf W B := fun h => biSup_mono h
  have hLm : ∀ i, Measurable[sigOf W {s i}] (L i) := by
    intro i
    have h1 : Measurable[MeasurableSpace.comap (W (s i)) inferInstance] (W (s i)) := comap_measurable _
    have h2 : Measurable[sigOf W {s i}] (W (s i)) :=
      h1.mono (le_iSup₂_of_le (f := fun y (_ : y ∈ ({s i} : Set ι)) => MeasurableSpace.comap (W y) inferInstance) (s i) rfl le_rfl) le_rfl
    have h3 : L i = fun ω => -Real.log (1 - W (s i) ω) / mu := funext fun ω => (hL i ω).symm
    rw [h3]
    exact ((Real.measurable_log.comp (measurable_const.sub h2)).neg).div_const _
  have hLM : ∀ i, Measurable (L i) := fun i => (hLm i).mono (hsig _) le_rfl
  have hlaw : ∀ i, P.map (L i) = expMeasure mu := by
    intro i
    have h3 : L i = (fun u => -Real.log (1 - u) / mu) ∘ W (s i) := funext fun ω => (hL i ω).symm
    rw [h3, ← Measure.map_map (by fun_prop) (hW.meas _), hW.law, map_unif_log hmu]
  have hL1 : ∀ i, ∫ ω, L i ω ∂P = 1 / mu := by
    intro i
    rw [← mean_unif_log mu, ← hW.law (s i), integral_map (hW.meas _).aemeasurable]
    · simp only [hL]
    · exact (by fun_prop : Measurable fun u : ℝ => -Real.log (1 - u) / mu).aestronglyMeasurable
  have hL2 : ∀ i, ∫ ω, L i ω ^ 2 ∂P = 2 / mu ^ 2 := by
    intro i
    rw [← exp_second_moment hmu, ← hlaw i, integral_map (hLM i).aemeasurable]
    exact (by fun_prop : Measurable fun x : ℝ => x ^ 2).aestronglyMeasurable
  have hLi : ∀ i, Integrable (L i) P := fun i => Integrable.of_integral_ne_zero (by rw [hL1]; positivity)
  have hLi2 : ∀ i, Integrable (fun ω => L i ω ^ 2) P := fun i => Integrable.of_integral_ne_zero (by rw [hL2]; positivity)
  have hindep : ∀ (A B : Set ι), Disjoint A B → ∀ f h : Ω → ℝ, Measurable[sigOf W A] f → Measurable[sigOf W B] h → IndepFun f h P := by
    intro A B hAB f h hf hh
    have : Indep (sigOf W A) (sigOf W B) P := indep_iSup_of_disjoint (fun y => (hW.meas y).comap_le) hW.indep hAB
    exact indep_of_indep_of_le_left (indep_of_indep_of_le_right this hh.comap_le) hf.comap_le
  have hone : ∀ i (f : Ω → ℝ), Measurable[sigOf W T] f → (∀ ω, |f ω| ≤ 3) →
      Integrable (fun ω => L i ω * f ω) P ∧ ∫ ω, L i ω * f ω ∂P = 1 / mu * ∫ ω, f ω ∂P := by
    intro i f hf hb
    have hf' : Measurable f := hf.mono (hsig _) le_rfl
    refine ⟨(hLi i).mul_bdd (c := 3) hf'.aestronglyMeasurable (Filter.Eventually.of_forall hb), ?_⟩
    have := hindep {s i} T (by rw [Set.disjoint_singleton_left]; exact hT i) _ _ (hLm i) hf
    rw [this.integral_fun_mul_eq_mul_integral (hLM i).aestronglyMeasurable hf'.aestronglyMeasurable, hL1]
  have htwo : ∀ i l, i ≠ l → ∀ (f : Ω → ℝ), Measurable[sigOf W T] f → (∀ ω, |f ω| ≤ 3) →
      Integrable (fun ω => L l ω * (L i ω * f ω)) P ∧ ∫ ω, L l ω * (L i ω * f ω) ∂P = 1 / mu ^ 2 * ∫ ω, f ω ∂P := by
    intro i l hil f hf hb
    obtain ⟨i1, e1⟩ := hone i f hf hb
    have hm : Measurable[sigOf W (T ∪ {s i})] fun ω => L i ω * f ω :=
      ((hLm i).mono (hmono (Set.subset_union_right)) le_rfl).mul (hf.mono (hmono Set.subset_union_left) le_rfl)
    have hd : Disjoint ({s l} : Set ι) (T ∪ {s i}) := by
      rw [Set.disjoint_singleton_left]
      rintro (h | h)
      · exact hT l h
      · exact hil (hs h).symm
    have hI := hindep {s l} (T ∪ {s i}) hd _ _ (hLm l) hm
    refine ⟨hI.integrable_mul (hLi l) i1, ?_⟩
    rw [hI.integral_fun_mul_eq_mul_integral (hLM l).aestronglyMeasurable (hm.mono (hsig _) le_rfl).aestronglyMeasurable, hL1, e1]
    field_simp
  have hb1 : ∀ i, i < N → ∀ ω, |(k i ω).x| ≤ 1 ∧ |(k i ω).y| ≤ 1 ∧ |(k i ω).z| ≤ 1 := by
    intro i hi ω
    have h := hunit i hi ω
    refine ⟨?_, ?_, ?_⟩ <;>
    · rw [← sq_le_one_iff_abs_le_one]
      nlinarith [sq_nonneg (k i ω).x, sq_nonneg (k i ω).y, sq_nonneg (k i ω).z]
  have hdotm : ∀ i l, i < N → l < N → Measurable[sigOf W T] (fun ω => V3.dot (k i ω) (k l ω)) := by
    intro i l hi hl
    obtain ⟨a1, a2, a3⟩ := hkm i hi
    obtain ⟨b1, b2, b3⟩ := hkm l hl
    simp only [V3.dot]
    exact ((a1.mul b1).add (a2.mul b2)).add (a3.mul b3)
  have hdotb : ∀ i l, i < N → l < N → ∀ ω, |V3.dot (k i ω) (k l ω)| ≤ 3 := by
    intro i l hi hl ω
    obtain ⟨a1, a2, a3⟩ := hb1 i hi ω
    obtain ⟨b1, b2, b3⟩ := hb1 l hl ω
    have m : ∀ x y : ℝ, |x| ≤ 1 → |y| ≤ 1 → |x * y| ≤ 1 := fun x y hx hy => by
      rw [abs_mul]; exact mul_le_one₀ hx (abs_nonneg _) hy
    simp only [V3.dot]
    have t1 := abs_add_le ((k i ω).x * (k l ω).x + (k i ω).y * (k l ω).y) ((k i ω).z * (k l ω).z)
    have t2 := abs_add_le ((k i ω).x * (k l ω).x) ((k i ω).y * (k l ω).y)
    linarith [m _ _ a1 b1, m _ _ a2 b2, m _ _ a3 b3]
  -- scalar product of the position with a direction
  have hdot : ∀ e ω v, V3.dot (r e ω) v = ∑ i ∈ Finset.range e, L i ω * V3.dot (k i ω) v := by
    intro e ω v
    induction e with
    | zero => rw [hr0]; simp [V3.dot]
    | succ e ih =>
      rw [Finset.sum_range_succ, ← ih, hr, hL]
      simp only [V3.dot]; ring
  have main : ∀ e, e ≤ N → Integrable (fun ω => V3.normSq (r e ω)) P ∧
      ∫ ω, V3.normSq (r e ω) ∂P = 2 / mu ^ 2 * ∑ l ∈ Finset.range e, (1 + ∑ i ∈ Finset.range l, c i l) := by
    intro e
    induction e with
    | zero => intro _; simp [hr0, V3.normSq, V3.dot]
    | succ e ih =>
      intro he
      obtain ⟨hi, hv⟩ := ih (by omega)
      have hstep : ∀ ω, V3.normSq (r (e + 1) ω) =
          V3.normSq (r e ω) + (∑ i ∈ Finset.range e, 2 * (L e ω * (L i ω * V3.dot (k i ω) (k e ω))) + L e ω ^ 2) := by
        intro ω
        have h1 : ∑ i ∈ Finset.range e, 2 * (L e ω * (L i ω * V3.dot (k i ω) (k e ω))) = 2 * (L e ω * V3.dot (r e ω) (k e ω)) := by
          rw [hdot, Finset.mul_sum, Finset.mul_sum]
        rw [h1, hr, hL]
        simp only [V3.normSq, V3.dot]
        linear_combination (L e ω) ^ 2 * hunit e (by omega) ω
      have hterm : ∀ i ∈ Finset.range e, Integrable (fun ω => 2 * (L e ω * (L i ω * V3.dot (k i ω) (k e ω)))) P := by
        intro i hie
        have hie := Finset.mem_range.mp hie
        exact ((htwo i e (by omega) _ (hdotm i e (by omega) (by omega)) (hdotb i e (by omega) (by omega))).1).const_mul 2
      have hsum := integrable_finsetSum (Finset.range e) hterm
      simp only [hstep]
      have hsum2 : Integrable (fun ω => ∑ i ∈ Finset.range e, 2 * (L e ω * (L i ω * V3.dot (k i ω) (k e ω))) + L e ω ^ 2) P :=
        hsum.add (hLi2 e)
      refine ⟨hi.add hsum2, ?_⟩
      rw [integral_add hi hsum2, integral_add hsum (hLi2 e), integral_finsetSum _ hterm, hv, hL2, Finset.sum_range_succ]
      have hval : ∀ i ∈ Finset.range e, ∫ ω, 2 * (L e ω * (L i ω * V3.dot (k i ω) (k e ω))) ∂P = 2 / mu ^ 2 * c i e := by
        intro i hie
        have hie := Finset.mem_range.mp hie
        rw [integral_const_mul, (htwo i e (by omega) _ (hdotm i e (by omega) (by omega)) (hdotb i e (by omega) (by omega))).2,
          hc i e hie (by omega)]
        ring
      rw [Finset.sum_congr rfl hval, ← Finset.mul_sum]
      ring
  exact (main e he).2

end general

variable {nt : ℕ}

/-- averages over a phase function stay strictly inside (-1, 1) -/
private theorem meanOver_abs_lt {n : ℕ} {p : Fin (n + 1) → ℝ} {m : ℝ} (hp : ∀ k, 0 ≤ p k) (hm0 : 0 ≤ m) (hm1 : m < Real.pi)
    (hpos : 0 < ∑ k, p k * Real.sin (gridAngle m Real.pi n k)) (f : ℝ → ℝ) (hf : ∀ t, |f t| ≤ 1)
    (hf' : ∀ t, Real.sin t ≠ 0 → |f t| < 1) : |meanOver p m f| < 1 := by
  have hs : ∀ k, 0 ≤ p k * Real.sin (gridAngle m Real.pi n k) := fun k => by
    rw [← linspace_grid]; exact mul_nonneg (hp k) (sin_linspace_nonneg hm0 hm1.le k.isLt)
  rw [meanOver, abs_div, abs_of_pos hpos, div_lt_one hpos]
  refine lt_of_le_of_lt (Finset.abs_sum_le_sum_abs _ _) ?_
  obtain ⟨k, -, hk0⟩ : ∃ k ∈ Finset.univ, 0 < p k * Real.sin (gridAngle m Real.pi n k) := by
    by_contra hno
    push Not at hno
    exact absurd (Finset.sum_nonpos hno) (not_le.mpr hpos)
  have habs : ∀ k, |p k * Real.sin (gridAngle m Real.pi n k) * f (gridAngle m Real.pi n k)| =
      p k * Real.sin (gridAngle m Real.pi n k) * |f (gridAngle m Real.pi n k)| := fun k => by rw [abs_mul, abs_of_nonneg (hs k)]
  refine Finset.sum_lt_sum (fun k _ => by rw [habs]; exact mul_le_of_le_one_right (hs k) (hf _)) ⟨k, Finset.mem_univ k, ?_⟩
  rw [habs]
  have hsin : Real.sin (gridAngle m Real.pi n k) ≠ 0 := fun h => by rw [h, mul_zero] at hk0; exact lt_irrefl _ hk0
  exact mul_lt_of_lt_one_right hk0 (hf' _ hsin)

private theorem cos_abs_lt {t : ℝ} (h : Real.sin t ≠ 0) : |Real.cos t| < 1 := by
  rw [← sq_lt_one_iff_abs_lt_one]
  have h1 := Real.sin_sq_add_cos_sq t
  have h2 : 0 < Real.sin t ^ 2 := by positivity
  linarith

/-- Everything a run draws: independent uniform numbers for the angles and the steps of a sample with phase function `p` on the
polar angles from `m` to pi and scattering coefficient `mu`, light starting along z at `start`; `N` is the number of events.  -/
structure Walk {Ω : Type} [MeasurableSpace Ω] (P : Measure Ω) (nt n N : ℕ) (p : Fin (n + 1) → ℝ) (m mu : ℝ) (j : Fin nt) (start : V3) where
  /-- the numbers used for the angles -/
  A : (ℕ × Fin nt) × Fin 2 → Ω → ℝ
  /-- the numbers used for the steps -/
  S : ℕ × Fin nt → Ω → ℝ
  /-- further numbers (unused without fine roughness) -/
  V : ℕ → Ω → ℝ
  uniform : UniformDraws P (Sum.elim A (Sum.elim S V))
  ang : Ω → Angles nt
  step : Ω → ℕ → Fin nt → ℝ
  angles : ∀ ω, sampleAnglesRng1 N p m (fun i j => A ((i, j), 0) ω) (fun i j => A ((i, j), 1) ω) = .ok (ang ω)
  steps : ∀ ω, sampleStep nt mu none 0 (fun i j => S (i, j) ω) (fun j => V j ω) = .ok fun i j => fin (step ω i j)
  kn : ℕ → Fin nt → V3
  p0 : ℕ → Fin nt → V3
  incident : kn 0 j = ⟨0, 0, 1⟩
  starts : p0 0 j = start

/-- the positions the code computes -/
noncomputable def Walk.position {Ω : Type} [MeasurableSpace Ω] {P : Measure Ω} {n N : ℕ} {p : Fin (n + 1) → ℝ} {m mu : ℝ} {j : Fin nt}
    {start : V3} (w : Walk P nt n N p m mu j start) (ω : Ω) (e : ℕ) : V3 :=
  move w.p0 (w.step ω) (scatter N w.kn (w.ang ω).sintheta (w.ang ω).costheta (w.ang ω).sinphi (w.ang ω).cosphi) e j

/-- the positions of a photon that takes the same steps and is scattered by the same angles, but in its own frame (so that
consecutive directions enclose the sampled angle, `localFrame_angle`) -/
noncomputable def Walk.truePosition {Ω : Type} [MeasurableSpace Ω] {P : Measure Ω} {n N : ℕ} {p : Fin (n + 1) → ℝ} {m mu : ℝ} {j : Fin nt}
    {start : V3} (w : Walk P nt n N p m mu j start) (ω : Ω) (e : ℕ) : V3 :=
  move w.p0 (w.step ω) (fun i j => trueDirection (w.ang ω) i j) e j

/-- squared distance -/
def distSq (a b : V3) : ℝ := (a.x - b.x) ^ 2 + (a.y - b.y) ^ 2 + (a.z - b.z) ^ 2

private theorem localFrame_dot (l : List (ℝ × ℝ × ℝ × ℝ)) (hl : ∀ a ∈ l, a.1 ^ 2 + a.2.1 ^ 2 = 1 ∧ a.2.2.1 ^ 2 + a.2.2.2 ^ 2 = 1)
    (u v : V3) : V3.dot (localFrame l u) (localFrame l v) = V3.dot u v := by
  induction l with
  | nil => rfl
  | cons b l ih =>
    rw [← ih fun a ha => hl a (List.mem_cons_of_mem _ ha)]
    obtain ⟨h1, h2⟩ := hl b (List.mem_cons_self ..)
    simp only [localFrame, Function.comp, turn, V3.dot]
    generalize localFrame l u = a
    generalize localFrame l v = c
    linear_combination (a.x * c.x + a.z * c.z) * h1 +
      ((a.x * b.2.1 + a.z * b.1) * (c.x * b.2.1 + c.z * b.1) + a.y * c.y) * h2

private theorem walk_msd {Ω : Type} [mΩ : MeasurableSpace Ω] {P : Measure Ω} [IsProbabilityMeasure P] {n N : ℕ} {p : Fin (n + 1) → ℝ}
    {m mu : ℝ} {j : Fin nt} {start : V3} (w : Walk P nt n N p m mu j start)
    (hp : ∀ k, 0 ≤ p k) (hm0 : 0 ≤ m) (hm1 : m < Real.pi) (hmu : 0 < mu)
    (hpos : 0 < ∑ k, p k * Real.sin (gridAngle m Real.pi n k)) (e : ℕ) (he : e ≤ N) :
    ∫ ω, distSq (w.position ω e) start ∂P = 2 / mu ^ 2 * ∑ l ∈ Finset.range e, (1 + ∑ i ∈ Finset.range l,
      meanOver p m Real.cos ^ (l - i) * (1 / 3 + 2 / 3 * ((3 * meanOver p m (fun t => Real.cos t ^ 2) - 1) / 2) ^ i)) ∧
    ∫ ω, distSq (w.truePosition ω e) start ∂P = 2 / mu ^ 2 * ∑ l ∈ Finset.range e, (1 + ∑ i ∈ Finset.range l,
      meanOver p m Real.cos ^ (l - i)) := by
  classical
  obtain ⟨A, S, V, hU, ang, step, hang, hstep, kn, p0, hkn, hst⟩ := w
  have hA : UniformDraws P A := ⟨fun i => hU.meas (Sum.inl i), fun i => hU.law (Sum.inl i), iIndepFun.precomp (g := Sum.inl) Sum.inl_injective hU.indep⟩
  have hsx : ∀ ω i, step ω i j = -Real.log (1 - Sum.elim A (Sum.elim S V) (Sum.inr (Sum.inl (i, j))) ω) / mu := fun ω i => by
    have h := hstep ω
    simp only [sampleStep] at h
    rw [if_neg (by norm_num)] at h
    injection h with h
    have := congrFun (congrFun h i) j
    rw [fin_div _ hmu.ne', fin_inj] at this
    exact this.symm
  have hAm : ∀ y, Measurable[(sigOf (Sum.elim A (Sum.elim S V)) (Set.range Sum.inl))] (A y) := fun y => by
    have h1 : Measurable[MeasurableSpace.comap (A y) inferInstance] (A y) := comap_measurable _
    exact h1.mono (le_iSup₂_of_le (f := fun y (_ : y ∈ Set.range Sum.inl) => MeasurableSpace.comap (Sum.elim A (Sum.elim S V) y) inferInstance)
      (Sum.inl y) ⟨y, rfl⟩ le_rfl) le_rfl
  have hang' := fun ω => ang_eq hang ω
  obtain ⟨K, hK⟩ : ∃ K : ℝ → Fin (n + 1), K = choiceIndex (probTheta p m) := ⟨_, rfl⟩
  have hmK : Measurable K := hK ▸ measurable_choiceIndex _
  simp only [← hK] at hang'
  have hthm : ∀ i, Measurable[(sigOf (Sum.elim A (Sum.elim S V)) (Set.range Sum.inl))] fun ω => (ang ω).theta i j := fun i => by
    simp only [fun ω => (hang' ω).1 i j]
    exact (measurable_of_finite (gridAngle m Real.pi n)).comp (hmK.comp (hAm _))
  have hphm : ∀ i, Measurable[(sigOf (Sum.elim A (Sum.elim S V)) (Set.range Sum.inl))] fun ω => (ang ω).phi i j := fun i => by
    simp only [fun ω => (hang' ω).2.1 i j]
    exact (hAm _).const_mul _
  have m1 : ∀ i, Measurable[(sigOf (Sum.elim A (Sum.elim S V)) (Set.range Sum.inl))] fun ω => (ang ω).sintheta i j := fun i => by
    simp only [fun ω => (hang' ω).2.2.1]; exact Real.measurable_sin.comp (hthm i)
  have m2 : ∀ i, Measurable[(sigOf (Sum.elim A (Sum.elim S V)) (Set.range Sum.inl))] fun ω => (ang ω).costheta i j := fun i => by
    simp only [fun ω => (hang' ω).2.2.2.1]; exact Real.measurable_cos.comp (hthm i)
  have m3 : ∀ i, Measurable[(sigOf (Sum.elim A (Sum.elim S V)) (Set.range Sum.inl))] fun ω => (ang ω).sinphi i j := fun i => by
    simp only [fun ω => (hang' ω).2.2.2.2.1]; exact Real.measurable_sin.comp (hphm i)
  have m4 : ∀ i, Measurable[(sigOf (Sum.elim A (Sum.elim S V)) (Set.range Sum.inl))] fun ω => (ang ω).cosphi i j := fun i => by
    simp only [fun ω => (hang' ω).2.2.2.2.2]; exact Real.measurable_cos.comp (hphm i)
  have hcons : ∀ ω a b, (ang ω).sintheta a b ^ 2 + (ang ω).costheta a b ^ 2 = 1 ∧ (ang ω).sinphi a b ^ 2 + (ang ω).cosphi a b ^ 2 = 1 := by
    intro ω a b
    rw [(hang' ω).2.2.1, (hang' ω).2.2.2.1, (hang' ω).2.2.2.2.1, (hang' ω).2.2.2.2.2]
    exact ⟨Real.sin_sq_add_cos_sq _, Real.sin_sq_add_cos_sq _⟩
  have hinj : Function.Injective (fun i : ℕ => (Sum.inr (Sum.inl (i, j)) : ((ℕ × Fin nt) × Fin 2) ⊕ ((ℕ × Fin nt) ⊕ ℕ))) := by
    intro a b h
    have := Sum.inl.inj (Sum.inr.inj h)
    exact (Prod.mk.inj this).1
  have hnot : ∀ i : ℕ, (Sum.inr (Sum.inl (i, j)) : ((ℕ × Fin nt) × Fin 2) ⊕ ((ℕ × Fin nt) ⊕ ℕ)) ∉ Set.range Sum.inl := by
    rintro i ⟨y, hy⟩; exact absurd hy Sum.inl_ne_inr
  have hmove : ∀ (d : Ω → ℕ → Fin nt → V3) ω, (fun i => (⟨(move p0 (step ω) (d ω) i j).x - start.x, (move p0 (step ω) (d ω) i j).y - start.y,
      (move p0 (step ω) (d ω) i j).z - start.z⟩ : V3)) 0 = ⟨0, 0, 0⟩ := by
    intro d ω
    simp [move, cumsum, displacement, hst]
  have hmove' : ∀ (d : Ω → ℕ → Fin nt → V3) (i : ℕ) ω, (⟨(move p0 (step ω) (d ω) (i + 1) j).x - start.x,
      (move p0 (step ω) (d ω) (i + 1) j).y - start.y, (move p0 (step ω) (d ω) (i + 1) j).z - start.z⟩ : V3) =
      ⟨(move p0 (step ω) (d ω) i j).x - start.x + -Real.log (1 - Sum.elim A (Sum.elim S V) (Sum.inr (Sum.inl (i, j))) ω) / mu * (d ω i j).x,
       (move p0 (step ω) (d ω) i j).y - start.y + -Real.log (1 - Sum.elim A (Sum.elim S V) (Sum.inr (Sum.inl (i, j))) ω) / mu * (d ω i j).y,
       (move p0 (step ω) (d ω) i j).z - start.z + -Real.log (1 - Sum.elim A (Sum.elim S V) (Sum.inr (Sum.inl (i, j))) ω) / mu * (d ω i j).z⟩ := by
    intro d i ω
    have hm := (C33_move_steps p0 (step ω) (d ω) i j).2
    have h1 := congrArg V3.x hm
    have h2 := congrArg V3.y hm
    have h3 := congrArg V3.z hm
    simp only [V3.sub, V3.smul] at h1 h2 h3
    rw [hsx] at h1 h2 h3
    congr 1 <;> linarith
  have gen : ∀ (d : Ω → ℕ → Fin nt → V3) (c : ℕ → ℕ → ℝ),
      (∀ i, i < N → Measurable[sigOf (Sum.elim A (Sum.elim S V)) (Set.range Sum.inl)] (fun ω => (d ω i j).x) ∧
        Measurable[sigOf (Sum.elim A (Sum.elim S V)) (Set.range Sum.inl)] (fun ω => (d ω i j).y) ∧
        Measurable[sigOf (Sum.elim A (Sum.elim S V)) (Set.range Sum.inl)] (fun ω => (d ω i j).z)) →
      (∀ i, i < N → ∀ ω, (d ω i j).x ^ 2 + (d ω i j).y ^ 2 + (d ω i j).z ^ 2 = 1) →
      (∀ i l, i < l → l < N → ∫ ω, V3.dot (d ω i j) (d ω l j) ∂P = c i l) →
      ∫ ω, distSq (move p0 (step ω) (d ω) e j) start ∂P = 2 / mu ^ 2 * ∑ l ∈ Finset.range e, (1 + ∑ i ∈ Finset.range l, c i l) := by
    intro d c h1 h2 h3
    have := msd_general (Sum.elim A (Sum.elim S V)) hU (Set.range Sum.inl) (fun i => Sum.inr (Sum.inl (i, j))) hinj hnot hmu
      (fun i ω => d ω i j) N h1 h2 c h3
      (fun i ω => ⟨(move p0 (step ω) (d ω) i j).x - start.x, (move p0 (step ω) (d ω) i j).y - start.y,
        (move p0 (step ω) (d ω) i j).z - start.z⟩) (fun ω => hmove d ω) (fun i ω => hmove' d i ω) e he
    rw [← this]
    refine integral_congr_ae (Filter.Eventually.of_forall fun ω => ?_)
    simp only [distSq, V3.normSq, V3.dot]; ring
  obtain ⟨-, -, hlag, hframe⟩ := directions P A hA N p m hp hm0 hm1 hpos ang hang kn j hkn
    (fun e ω => scatter N kn (ang ω).sintheta (ang ω).costheta (ang ω).sinphi (ang ω).cosphi e j) (fun _ _ => rfl)
  constructor
  · refine gen (fun ω => scatter N kn (ang ω).sintheta (ang ω).costheta (ang ω).sinphi (ang ω).cosphi) _ ?_ ?_ ?_
    · intro i hi
      exact @dir_measurable nt Ω (sigOf (Sum.elim A (Sum.elim S V)) (Set.range Sum.inl)) N kn (fun ω => (ang ω).sintheta)
        (fun ω => (ang ω).costheta) (fun ω => (ang ω).sinphi) (fun ω => (ang ω).cosphi) j m1 m2 m3 m4 i hi
    · intro i hi ω
      have h := (C32_scatter_unit N kn _ _ _ _ (fun a b => hcons ω a b)).2.1 i j hi
      rw [hkn] at h
      simp only [V3.normSq, V3.dot] at h
      nlinarith [h]
    · intro i l hil hl
      obtain ⟨d, rfl⟩ : ∃ d, l = i + (d + 1) := ⟨l - i - 1, by omega⟩
      rw [hlag i d hl]
      congr 2
      omega
  · have hh : ∀ ω i, ∀ a ∈ history (ang ω).sintheta (ang ω).costheta (ang ω).sinphi (ang ω).cosphi j i,
        a.1 ^ 2 + a.2.1 ^ 2 = 1 ∧ a.2.2.1 ^ 2 + a.2.2.2 ^ 2 = 1 := by
      intro ω i a ha
      rw [history, List.mem_map] at ha
      obtain ⟨l, -, rfl⟩ := ha
      exact hcons ω l j
    refine gen (fun ω i j => trueDirection (ang ω) i j) _ ?_ ?_ ?_
    · intro i hi
      have hl := @measurable_localFrame Ω (sigOf (Sum.elim A (Sum.elim S V)) (Set.range Sum.inl))
        ((List.range i).map fun l ω => ((ang ω).sintheta l j, (ang ω).costheta l j, (ang ω).sinphi l j, (ang ω).cosphi l j))
        (fun a ha => by
          obtain ⟨l, -, rfl⟩ := List.mem_map.mp ha
          exact (m1 l).prodMk ((m2 l).prodMk ((m3 l).prodMk (m4 l))))
      have he : (fun ω => components (localFrame (List.map (fun a => a ω) ((List.range i).map fun l ω => ((ang ω).sintheta l j,
          (ang ω).costheta l j, (ang ω).sinphi l j, (ang ω).cosphi l j))) ⟨0, 0, 1⟩)) = fun ω => components (trueDirection (ang ω) i j) := by
        funext ω
        rw [List.map_map]; rfl
      rw [he] at hl
      exact ⟨measurable_fst.comp hl, measurable_fst.comp (measurable_snd.comp hl), measurable_snd.comp (measurable_snd.comp hl)⟩
    · intro i hi ω
      have := localFrame_dot _ (hh ω i) ⟨0, 0, 1⟩ ⟨0, 0, 1⟩
      simp only [V3.dot] at this
      simp only [trueDirection]
      nlinarith [this]
    · intro i l hil hl
      obtain ⟨d, rfl⟩ : ∃ d, l = i + d := ⟨l - i, by omega⟩
      rw [← show d = i + d - i by omega, ← hframe i d]
      refine integral_congr_ae (Filter.Eventually.of_forall fun ω => ?_)
      have hsplit : history (ang ω).sintheta (ang ω).costheta (ang ω).sinphi (ang ω).cosphi j (i + d) =
          history (ang ω).sintheta (ang ω).costheta (ang ω).sinphi (ang ω).cosphi j i ++
          (List.range' i d).map fun i => ((ang ω).sintheta i j, (ang ω).costheta i j, (ang ω).sinphi i j, (ang ω).cosphi i j) := by
        rw [history, history, ← List.map_append, List.range_eq_range', List.range_eq_range']
        congr 1
        rw [show List.range' i d = List.range' (0 + 1 * i) d by simp, List.range'_append]
      simp only [trueDirection]
      rw [hsplit, localFrame_append, Function.comp, localFrame_dot _ (hh ω i)]
      simp [V3.dot]

private theorem geom_closed (g : ℝ) (l : ℕ) : (∑ i ∈ Finset.range l, g ^ (l - i)) * (1 - g) = g * (1 - g ^ l) := by
  induction l with
  | zero => simp
  | succ l ih =>
    have h : ∑ i ∈ Finset.range (l + 1), g ^ (l + 1 - i) = g * (∑ i ∈ Finset.range l, g ^ (l - i)) + g := by
      rw [Finset.sum_range_succ, Finset.mul_sum]
      congr 1
      · refine Finset.sum_congr rfl fun i hi => ?_
        have := Finset.mem_range.mp hi
        rw [← pow_succ', show l + 1 - i = l - i + 1 by omega]
      · rw [show l + 1 - l = 1 by omega, pow_one]
    rw [h, add_mul, mul_assoc, ih]; ring

private theorem geom_tendsto {g : ℝ} (hg : |g| < 1) :
    Filter.Tendsto (fun l : ℕ => ∑ i ∈ Finset.range l, g ^ (l - i)) Filter.atTop (nhds (g / (1 - g))) := by
  have h1 : 1 - g ≠ 0 := by have := (abs_lt.mp hg).2; linarith
  have h2 : (fun l : ℕ => ∑ i ∈ Finset.range l, g ^ (l - i)) = fun l => g * (1 - g ^ l) / (1 - g) := by
    funext l; rw [eq_div_iff h1]; exact geom_closed g l
  rw [h2]
  have := ((tendsto_pow_atTop_nhds_zero_of_abs_lt_one hg).const_sub 1).const_mul g |>.div_const (1 - g)
  simpa using this

private theorem conv_tendsto {g q : ℝ} (hg : |g| < 1) (hq : |q| < 1) :
    Filter.Tendsto (fun l : ℕ => ∑ i ∈ Finset.range l, g ^ (l - i) * q ^ i) Filter.atTop (nhds 0) := by
  obtain ⟨M, hMd⟩ : ∃ M : ℝ, M = max (|g|) (|q|) := ⟨_, rfl⟩
  have hgM : |g| ≤ M := hMd ▸ le_max_left _ _
  have hqM : |q| ≤ M := hMd ▸ le_max_right _ _
  have hM0 : 0 ≤ M := (abs_nonneg g).trans hgM
  have hM : |M| < 1 := by rw [abs_of_nonneg hM0, hMd]; exact max_lt hg hq
  have hb := tendsto_self_mul_const_pow_of_abs_lt_one hM
  refine squeeze_zero_norm (fun l => ?_) hb
  rw [Real.norm_eq_abs]
  refine (Finset.abs_sum_le_sum_abs _ _).trans ?_
  refine (Finset.sum_le_card_nsmul _ _ (M ^ l) fun i hi => ?_).trans (by simp)
  have := Finset.mem_range.mp hi
  rw [abs_mul, abs_pow, abs_pow]
  calc |g| ^ (l - i) * |q| ^ i ≤ M ^ (l - i) * M ^ i :=
        mul_le_mul (pow_le_pow_left₀ (abs_nonneg _) hgM _) (pow_le_pow_left₀ (abs_nonneg _) hqM _)
          (pow_nonneg (abs_nonneg _) _) (pow_nonneg hM0 _)
    _ = M ^ l := by rw [← pow_add]; congr 1; omega

/-- C125, the formula that holds of the code.  With independent uniform numbers, light incident along z, phase function `p` and
scattering coefficient `mu`, the mean squared distance from the start after `e` steps, with `g` the average cosine and `c` the average
squared cosine of the scattering angle. -/
theorem C125_squared_displacement_partial {Ω : Type} [MeasurableSpace Ω] {P : Measure Ω} [IsProbabilityMeasure P] {n N : ℕ}
    {p : Fin (n + 1) → ℝ} {m mu : ℝ} {j : Fin nt} {start : V3} (w : Walk P nt n N p m mu j start)
    (hp : ∀ k, 0 ≤ p k) (hm0 : 0 ≤ m) (hm1 : m < Real.pi) (hmu : 0 < mu)
    (hpos : 0 < ∑ k, p k * Real.sin (gridAngle m Real.pi n k)) (e : ℕ) (he : e ≤ N) :
    let g := meanOver p m Real.cos
    let c := meanOver p m (fun t => Real.cos t ^ 2)
    ∫ ω, distSq (w.position ω e) start ∂P =
      2 / mu ^ 2 * ∑ l ∈ Finset.range e, (1 + ∑ i ∈ Finset.range l, g ^ (l - i) * (1 / 3 + 2 / 3 * ((3 * c - 1) / 2) ^ i)) :=
  (walk_msd w hp hm0 hm1 hmu hpos e he).1

/-- C125 is false of the code.  A photon that takes the same steps and is scattered by the same angles in its own frame has mean squared
displacement `(2/mu^2) sum_{l<e} (1 + g + ... + g^l)`, the textbook value.  For a forward-peaked phase function (`g > 0`) the code's
photons stay closer to the start, for every number of steps from three on. -/
theorem C125_displacement_refuted {Ω : Type} [MeasurableSpace Ω] {P : Measure Ω} [IsProbabilityMeasure P] {n N : ℕ}
    {p : Fin (n + 1) → ℝ} {m mu : ℝ} {j : Fin nt} {start : V3} (w : Walk P nt n N p m mu j start)
    (hp : ∀ k, 0 ≤ p k) (hm0 : 0 ≤ m) (hm1 : m < Real.pi) (hmu : 0 < mu)
    (hpos : 0 < ∑ k, p k * Real.sin (gridAngle m Real.pi n k)) (e : ℕ) (he : e ≤ N) :
    let g := meanOver p m Real.cos
    ∫ ω, distSq (w.truePosition ω e) start ∂P = 2 / mu ^ 2 * ∑ l ∈ Finset.range e, ∑ i ∈ Finset.range (l + 1), g ^ i ∧
    (0 < g → 3 ≤ e → ∫ ω, distSq (w.position ω e) start ∂P < ∫ ω, distSq (w.truePosition ω e) start ∂P) := by
  obtain ⟨h1, h2⟩ := walk_msd w hp hm0 hm1 hmu hpos e he
  intro g
  constructor
  · rw [h2]
    congr 1
    refine Finset.sum_congr rfl fun l _ => ?_
    rw [Finset.sum_range_succ', pow_zero, add_comm, ← Finset.sum_range_reflect (fun i => meanOver p m Real.cos ^ (l - i))]
    congr 1
    refine Finset.sum_congr rfl fun i hi => ?_
    have := Finset.mem_range.mp hi
    rw [show l - (l - 1 - i) = i + 1 by omega]
  · intro hg he3
    rw [h1, h2]
    have hg1 := meanOver_abs_lt hp hm0 hm1 hpos Real.cos Real.abs_cos_le_one fun t ht => cos_abs_lt ht
    have hc := meanOver_abs_lt hp hm0 hm1 hpos (fun t => Real.cos t ^ 2) (fun t => by
      rw [abs_of_nonneg (sq_nonneg _)]; exact Real.cos_sq_le_one t) (fun t ht => by
      rw [abs_of_nonneg (sq_nonneg _), sq_lt_one_iff_abs_lt_one]; exact cos_abs_lt ht)
    have hc0 : 0 ≤ meanOver p m (fun t => Real.cos t ^ 2) := by
      rw [meanOver]
      refine div_nonneg (Finset.sum_nonneg fun k _ => mul_nonneg ?_ (sq_nonneg _)) hpos.le
      rw [← linspace_grid]; exact mul_nonneg (hp k) (sin_linspace_nonneg hm0 hm1.le k.isLt)
    generalize hcd : meanOver p m (fun t => Real.cos t ^ 2) = c at *
    have hc1 := (abs_lt.mp hc).2
    have hq : |(3 * c - 1) / 2| < 1 := by rw [abs_lt]; constructor <;> linarith
    have hqi : ∀ i, ((3 * c - 1) / 2) ^ i ≤ 1 := fun i => by
      refine (le_abs_self _).trans ?_
      rw [abs_pow]; exact pow_le_one₀ (abs_nonneg _) hq.le
    have hterm : ∀ l i, g ^ (l - i) * (1 / 3 + 2 / 3 * ((3 * c - 1) / 2) ^ i) ≤ g ^ (l - i) := fun l i =>
      mul_le_of_le_one_right (pow_nonneg hg.le _) (by linarith [hqi i])
    refine mul_lt_mul_of_pos_left ?_ (by positivity)
    refine Finset.sum_lt_sum (fun l _ => by gcongr with i _; exact hterm l i) ⟨2, Finset.mem_range.mpr (by omega), ?_⟩
    refine (add_lt_add_iff_left 1).mpr ?_
    refine Finset.sum_lt_sum (fun i _ => hterm 2 i) ⟨1, by simp, ?_⟩
    refine mul_lt_of_lt_one_right (pow_pos hg _) ?_
    rw [pow_one]; linarith

/-- C125 is false of the code in the limit of many events, the diffusion of light.  The mean squared displacement per scattering event tends
to `2 (1/mu) (1/(mu (1-g)))` — scattering length times transport length — for a photon scattered in its own frame, but to
`(2/mu^2) (1 + g/(3 (1-g)))` in the code: smaller whenever `g > 0`. -/
theorem C125_diffusion_refuted {Ω : Type} [MeasurableSpace Ω] {P : Measure Ω} [IsProbabilityMeasure P] {n : ℕ}
    {p : Fin (n + 1) → ℝ} {m mu : ℝ} {j : Fin nt} {start : V3} (w : (N : ℕ) → Walk P nt n N p m mu j start)
    (hp : ∀ k, 0 ≤ p k) (hm0 : 0 ≤ m) (hm1 : m < Real.pi) (hmu : 0 < mu)
    (hpos : 0 < ∑ k, p k * Real.sin (gridAngle m Real.pi n k)) :
    let g := meanOver p m Real.cos
    Filter.Tendsto (fun N : ℕ => (∫ ω, distSq ((w N).truePosition ω N) start ∂P) / N) Filter.atTop
      (nhds (2 * (1 / mu) * (1 / (mu * (1 - g))))) ∧
    Filter.Tendsto (fun N : ℕ => (∫ ω, distSq ((w N).position ω N) start ∂P) / N) Filter.atTop
      (nhds (2 / mu ^ 2 * (1 + g / (3 * (1 - g))))) ∧
    (0 < g → 2 / mu ^ 2 * (1 + g / (3 * (1 - g))) < 2 * (1 / mu) * (1 / (mu * (1 - g)))) := by
  intro g
  have hg : |g| < 1 := meanOver_abs_lt hp hm0 hm1 hpos Real.cos Real.abs_cos_le_one fun t ht => cos_abs_lt ht
  have hg1 : 0 < 1 - g := by have := (abs_lt.mp hg).2; linarith
  have hc := meanOver_abs_lt hp hm0 hm1 hpos (fun t => Real.cos t ^ 2) (fun t => by
    rw [abs_of_nonneg (sq_nonneg _)]; exact Real.cos_sq_le_one t) (fun t ht => by
    rw [abs_of_nonneg (sq_nonneg _), sq_lt_one_iff_abs_lt_one]; exact cos_abs_lt ht)
  have hc0 : 0 ≤ meanOver p m (fun t => Real.cos t ^ 2) := by
    rw [meanOver]
    refine div_nonneg (Finset.sum_nonneg fun k _ => mul_nonneg ?_ (sq_nonneg _)) hpos.le
    rw [← linspace_grid]; exact mul_nonneg (hp k) (sin_linspace_nonneg hm0 hm1.le k.isLt)
  have hq : |(3 * meanOver p m (fun t => Real.cos t ^ 2) - 1) / 2| < 1 := by
    have := (abs_lt.mp hc).2
    rw [abs_lt]; constructor <;> linarith
  have cesaro : ∀ (f : ℕ → ℝ) (u : ℕ → ℝ) (x : ℝ), (∀ N, f N = 2 / mu ^ 2 * ∑ l ∈ Finset.range N, u l) →
      Filter.Tendsto u Filter.atTop (nhds x) → Filter.Tendsto (fun N : ℕ => f N / N) Filter.atTop (nhds (2 / mu ^ 2 * x)) := by
    intro f u x hf hu
    have := hu.cesaro.const_mul (2 / mu ^ 2)
    refine this.congr fun N => ?_
    rw [hf, div_eq_inv_mul]; ring
  refine ⟨?_, ?_, ?_⟩
  · have := cesaro _ _ _ (fun N => (walk_msd (w N) hp hm0 hm1 hmu hpos N le_rfl).2) ((geom_tendsto hg).const_add 1)
    have e : 2 / mu ^ 2 * (1 + g / (1 - g)) = 2 * (1 / mu) * (1 / (mu * (1 - g))) := by field_simp; ring
    rw [← e]
    exact this
  · have h2 := ((geom_tendsto hg).const_mul (1 / 3)).add ((conv_tendsto hg hq).const_mul (2 / 3))
    have h3 := h2.const_add 1
    have := cesaro _ (fun l => 1 + ∑ i ∈ Finset.range l, g ^ (l - i) * (1 / 3 + 2 / 3 * ((3 * meanOver p m (fun t => Real.cos t ^ 2) - 1) / 2) ^ i)) _
      (fun N => (walk_msd (w N) hp hm0 hm1 hmu hpos N le_rfl).1) (h3.congr fun l => by
        rw [Finset.mul_sum, Finset.mul_sum, ← Finset.sum_add_distrib]
        congr 1
        exact Finset.sum_congr rfl fun i _ => by ring)
    have e : 1 + (1 / 3 * (g / (1 - g)) + 2 / 3 * 0) = 1 + g / (3 * (1 - g)) := by field_simp; ring
    rw [e] at this
    exact this
  · intro hg0
    have e : 2 * (1 / mu) * (1 / (mu * (1 - g))) = 2 / mu ^ 2 * (1 + g / (1 - g)) := by field_simp; ring
    rw [e]
    refine mul_lt_mul_of_pos_left ?_ (by positivity)
    have : g / (3 * (1 - g)) < g / (1 - g) := div_lt_div_of_pos_left hg0 hg1 (by linarith)
    linarith

/-- C108, the limit.  The mean depth reached tends to one transport length `1 / (mu (1 - g))` as the number of events grows, while the
lateral mean stays at the start. -/
theorem C108_transport_length {Ω : Type} [MeasurableSpace Ω] {P : Measure Ω} [IsProbabilityMeasure P] {n : ℕ}
    {p : Fin (n + 1) → ℝ} {m mu : ℝ} {j : Fin nt} {start : V3} (w : (N : ℕ) → Walk P nt n N p m mu j start)
    (hp : ∀ k, 0 ≤ p k) (hm0 : 0 ≤ m) (hm1 : m < Real.pi) (hmu : 0 < mu)
    (hpos : 0 < ∑ k, p k * Real.sin (gridAngle m Real.pi n k)) :
    (∀ N, ∫ ω, ((w N).position ω N).x ∂P = start.x ∧ ∫ ω, ((w N).position ω N).y ∂P = start.y) ∧
    Filter.Tendsto (fun N : ℕ => ∫ ω, ((w N).position ω N).z ∂P) Filter.atTop
      (nhds (start.z + 1 / (mu * (1 - meanOver p m Real.cos)))) := by
  have h := fun N => C108_mean_position P (w N).A (w N).S (w N).V (w N).uniform N p m mu hp hm0 hm1 hmu hpos (w N).ang (w N).step
    (w N).angles (w N).steps (w N).kn (w N).p0 j (w N).incident _ (fun _ => rfl) N le_rfl
  have hg : |meanOver p m Real.cos| < 1 :=
    meanOver_abs_lt hp hm0 hm1 hpos Real.cos Real.abs_cos_le_one fun t ht => cos_abs_lt ht
  refine ⟨fun N => ⟨(h N).1.trans (by rw [(w N).starts]), (h N).2.1.trans (by rw [(w N).starts])⟩, ?_⟩
  have hz : (fun N : ℕ => ∫ ω, ((w N).position ω N).z ∂P) = fun N =>
      start.z + 1 / mu * ∑ i ∈ Finset.range N, meanOver p m Real.cos ^ i := by
    funext N
    exact (h N).2.2.trans (by rw [(w N).starts])
  have e : 1 / (mu * (1 - meanOver p m Real.cos)) = 1 / mu * (1 - meanOver p m Real.cos)⁻¹ := by rw [one_div_mul_eq_div, one_div, mul_inv]; ring
  rw [hz, e]
  have := ((hasSum_geometric_of_abs_lt_one hg).tendsto_sum_nat.const_mul (1 / mu)).const_add start.z
  exact this

/-- Non-vacuity of C125: runs of every length exist; for scattering by exactly 60 degrees with coefficient 2, the code's photons spread
two thirds as fast as they should. -/
example : ∃ (Ω : Type) (_ : MeasurableSpace Ω) (P : Measure Ω) (_ : IsProbabilityMeasure P) (p : Fin 4 → ℝ)
    (w : (N : ℕ) → Walk P 5 3 N p 0 2 0 ⟨0, 0, 0⟩),
    Filter.Tendsto (fun N : ℕ => (∫ ω, distSq ((w N).truePosition ω N) ⟨0, 0, 0⟩ ∂P) / N) Filter.atTop (nhds 1) ∧
    Filter.Tendsto (fun N : ℕ => (∫ ω, distSq ((w N).position ω N) ⟨0, 0, 0⟩ ∂P) / N) Filter.atTop (nhds (2 / 3)) := by
  obtain ⟨Ω, mΩ, P, W, hP, hW⟩ := uniformDraws_exist (((ℕ × Fin 5) × Fin 2) ⊕ ((ℕ × Fin 5) ⊕ ℕ))
  obtain ⟨p, hp, hpos, hmean, hch⟩ := sixty
  have hrun' : ∀ (N : ℕ) ω, ∃ a, sampleAnglesRng1 (n := 3) N p 0 (fun i j => W (Sum.inl ((i, j), 0)) ω) (fun i j => W (Sum.inl ((i, j), 1)) ω) = .ok a :=
    fun N ω => ⟨_, if_pos (Or.inr hch)⟩
  choose ang hrun using hrun'
  have hsr : ∀ ω, sampleStep 5 2 none 0 (fun i j => W (Sum.inr (Sum.inl (i, j))) ω) (fun j => W (Sum.inr (Sum.inr j)) ω) =
      .ok fun i j => fin (-Real.log (1 - W (Sum.inr (Sum.inl (i, j))) ω) / 2) := by
    intro ω
    simp only [sampleStep]
    rw [if_neg (by norm_num)]
    congr 1
    funext i j
    rw [fin_div _ (by norm_num)]
  have hWe : Sum.elim (fun i => W (Sum.inl i)) (Sum.elim (fun i => W (Sum.inr (Sum.inl i))) (fun i => W (Sum.inr (Sum.inr i)))) = W := by
    funext i; rcases i with i | i | i <;> rfl
  let w : (N : ℕ) → Walk P 5 3 N p 0 2 0 ⟨0, 0, 0⟩ := fun N =>
    ⟨fun i => W (Sum.inl i), fun i => W (Sum.inr (Sum.inl i)), fun i => W (Sum.inr (Sum.inr i)), hWe.symm ▸ hW, ang N, _, hrun N, hsr,
      fun _ _ => ⟨0, 0, 1⟩, fun _ _ => ⟨0, 0, 0⟩, rfl, rfl⟩
  obtain ⟨h1, h2, -⟩ := C125_diffusion_refuted w hp le_rfl Real.pi_pos two_pos hpos
  rw [hmean, Real.cos_pi_div_three] at h1 h2
  refine ⟨Ω, mΩ, P, hP, p, w, ?_, ?_⟩
  · convert h1 using 2; norm_num
  · convert h2 using 2; norm_num

end Verif.Props
