import Verif.Props.Init2
import Verif.SpecStat
import Mathlib.Analysis.SpecialFunctions.PolarCoord
import Mathlib.MeasureTheory.Measure.Lebesgue.VolumeOfBalls

/-!
# C104: the distribution of the start points and directions of the light
-/

namespace Verif.Props

open MeasureTheory ProbabilityTheory Verif.Spec Verif.Init XF
open Verif.Geometry (XV finV ofV3)

section general
variable {Ω ι κ : Type} [MeasurableSpace Ω] {P : Measure Ω} [IsProbabilityMeasure P]

/-- independent variables, grouped by their first index, are independent groups -/
theorem iIndepFun_curry {X : ι × κ → Ω → ℝ} (mX : ∀ p, Measurable (X p)) (h : iIndepFun X P) :
    iIndepFun (fun i ω k => X (i, k) ω) P := by
  have hp : ∀ p, IsProbabilityMeasure (P.map (X p)) := fun p => Measure.isProbabilityMeasure_map (mX p).aemeasurable
  have h1 := (iIndepFun_iff_map_fun_eq_infinitePi_map mX).mp h
  have h2 : P.map (fun ω i k => X (i, k) ω) =
      Measure.infinitePi fun i => Measure.infinitePi fun k => P.map (X (i, k)) := by
    rw [← Measure.infinitePi_map_curry (fun i k => P.map (X (i, k)))]
    have : (fun ω i k => X (i, k) ω) = (MeasurableEquiv.curry ι κ ℝ) ∘ (fun ω p => X p ω) := rfl
    rw [this, ← Measure.map_map (MeasurableEquiv.measurable _) (by fun_prop), h1]
  have h3 : ∀ i, P.map (fun ω k => X (i, k) ω) = Measure.infinitePi fun k => P.map (X (i, k)) := by
    intro i
    have := congrArg (fun m => Measure.map (fun f : ι → κ → ℝ => f i) m) h2
    rw [Measure.infinitePi_map_eval, Measure.map_map (by fun_prop) (by fun_prop)] at this
    exact this
  rw [iIndepFun_iff_map_fun_eq_infinitePi_map (by fun_prop), h2]
  congr 1
  ext1 i
  rw [h3 i]

end general

/-- the disc of radius `R` about the origin -/
def disc (R : ℝ) : Set (ℝ × ℝ) := {p | p.1 ^ 2 + p.2 ^ 2 ≤ R ^ 2}

/-- disc point picking: two numbers to a point of the plane -/
noncomputable def pick (R : ℝ) (p : ℝ × ℝ) : ℝ × ℝ :=
  (Real.sqrt p.1 * R * Real.cos (2 * Real.pi * p.2), Real.sqrt p.1 * R * Real.sin (2 * Real.pi * p.2))

theorem measurable_pick (R : ℝ) : Measurable (pick R) := by unfold pick; fun_prop

/-- derivative of `pick` -/
noncomputable def pick' (R : ℝ) (p : ℝ × ℝ) : ℝ × ℝ →L[ℝ] ℝ × ℝ :=
  (Matrix.toLin (.finTwoProd ℝ) (.finTwoProd ℝ)
    !![R / (2 * Real.sqrt p.1) * Real.cos (2 * Real.pi * p.2), -(Real.sqrt p.1 * R * (2 * Real.pi) * Real.sin (2 * Real.pi * p.2));
       R / (2 * Real.sqrt p.1) * Real.sin (2 * Real.pi * p.2), Real.sqrt p.1 * R * (2 * Real.pi) * Real.cos (2 * Real.pi * p.2)]).toContinuousLinearMap

theorem det_pick' (R : ℝ) {p : ℝ × ℝ} (hp : 0 < p.1) : (pick' R p).det = Real.pi * R ^ 2 := by
  unfold pick'
  simp only [LinearMap.det_toContinuousLinearMap, LinearMap.det_toLin, Matrix.det_fin_two_of]
  have h := Real.sin_sq_add_cos_sq (2 * Real.pi * p.2)
  have hs : Real.sqrt p.1 ≠ 0 := (Real.sqrt_pos.mpr hp).ne'
  field_simp
  linear_combination R ^ 2 * h

theorem hasFDerivAt_pick (R : ℝ) {p : ℝ × ℝ} (hp : 0 < p.1) : HasFDerivAt (pick R) (pick' R p) p := by
  unfold pick'
  rw [Matrix.toLin_finTwoProd_toContinuousLinearMap]
  have hs : HasFDerivAt (fun q : ℝ × ℝ => Real.sqrt q.1 * R) ((1 / (2 * Real.sqrt p.1) * R) • ContinuousLinearMap.fst ℝ ℝ ℝ) p := by
    have := ((Real.hasDerivAt_sqrt hp.ne').mul_const R).comp_hasFDerivAt p (hasFDerivAt_fst (𝕜 := ℝ) (E := ℝ) (F := ℝ) (p := p))
    exact this
  have ha : HasFDerivAt (fun q : ℝ × ℝ => 2 * Real.pi * q.2) ((2 * Real.pi) • ContinuousLinearMap.snd ℝ ℝ ℝ) p :=
    (hasFDerivAt_snd (𝕜 := ℝ) (E := ℝ) (F := ℝ) (p := p)).const_mul _
  have hc := (Real.hasDerivAt_cos (2 * Real.pi * p.2)).comp_hasFDerivAt p ha
  have hsn := (Real.hasDerivAt_sin (2 * Real.pi * p.2)).comp_hasFDerivAt p ha
  have := (hs.mul hc).prodMk (hs.mul hsn)
  refine this.congr_fderiv ?_
  ext <;> simp <;> ring

theorem injOn_pick {R : ℝ} (hR : 0 < R) : Set.InjOn (pick R) (Set.Ioo 0 1 ×ˢ Set.Ioo 0 1) := by
  rintro ⟨u, v⟩ ⟨⟨hu0, hu1⟩, ⟨hv0, hv1⟩⟩ ⟨u', v'⟩ ⟨⟨hu0', hu1'⟩, ⟨hv0', hv1'⟩⟩ h
  simp only [pick, Prod.mk.injEq] at h hu0 hu1 hv0 hv1 hu0' hu1' hv0' hv1'
  obtain ⟨h1, h2⟩ := h
  have hsu := Real.sqrt_pos.mpr hu0
  have hsu' := Real.sqrt_pos.mpr hu0'
  have e : u * R ^ 2 = u' * R ^ 2 := by
    have a := Real.sin_sq_add_cos_sq (2 * Real.pi * v)
    have b := Real.sin_sq_add_cos_sq (2 * Real.pi * v')
    have c := Real.sq_sqrt hu0.le
    have d := Real.sq_sqrt hu0'.le
    calc u * R ^ 2 = (√u * R * Real.cos (2 * Real.pi * v)) ^ 2 + (√u * R * Real.sin (2 * Real.pi * v)) ^ 2 := by
          linear_combination -R ^ 2 * c - √u ^ 2 * R ^ 2 * a
      _ = (√u' * R * Real.cos (2 * Real.pi * v')) ^ 2 + (√u' * R * Real.sin (2 * Real.pi * v')) ^ 2 := by rw [h1, h2]
      _ = u' * R ^ 2 := by linear_combination R ^ 2 * d + √u' ^ 2 * R ^ 2 * b
  have hu : u = u' := mul_right_cancel₀ (by positivity) e
  subst hu
  have hne : √u * R ≠ 0 := by positivity
  have hc := mul_left_cancel₀ hne h1
  have hs := mul_left_cancel₀ hne h2
  have hpi := Real.pi_pos
  have hcos : Real.cos (2 * Real.pi * v - 2 * Real.pi * v') = 1 := by
    rw [Real.cos_sub, hc, hs]; have := Real.sin_sq_add_cos_sq (2 * Real.pi * v'); nlinarith
  have := (Real.cos_eq_one_iff_of_lt_of_lt (by nlinarith) (by nlinarith)).mp hcos
  have hv : v = v' := by
    have : 2 * Real.pi * (v - v') = 0 := by linarith
    have := (mul_eq_zero.mp this).resolve_left (by positivity)
    linarith
  rw [hv]

theorem volume_disc {R : ℝ} (hR : 0 ≤ R) : volume (disc R) = ENNReal.ofReal (Real.pi * R ^ 2) := by
  have h := Complex.volume_preserving_equiv_real_prod.symm.measure_preimage (s := Metric.closedBall 0 R)
    Metric.isClosed_closedBall.measurableSet.nullMeasurableSet
  have hset : Complex.measurableEquivRealProd.symm ⁻¹' Metric.closedBall 0 R = disc R := by
    ext ⟨x, y⟩
    simp only [Set.mem_preimage, mem_closedBall_zero_iff, disc, Set.mem_ofPred_eq]
    rw [← abs_of_nonneg hR, ← abs_norm, ← sq_le_sq, Complex.sq_norm, abs_of_nonneg hR]
    simp [Complex.normSq_apply, Complex.measurableEquivRealProd, ← sq]
  rw [hset, Complex.volume_closedBall] at h
  rw [h, ENNReal.ofReal_mul Real.pi_pos.le, ENNReal.ofReal_pow hR, mul_comm]
  congr 1
  exact (ENNReal.ofReal_coe_nnreal (p := NNReal.pi)).symm

theorem measurableSet_disc (R : ℝ) : MeasurableSet (disc R) :=
  measurableSet_le (by fun_prop) (by fun_prop)

theorem unif_prod_unif : (unif.prod unif) = volume.restrict (Set.Ioo (0 : ℝ) 1 ×ˢ Set.Ioo (0 : ℝ) 1) := by
  unfold unif
  rw [Measure.restrict_congr_set Ioo_ae_eq_Ico.symm]
  rw [Measure.prod_restrict]; rfl

/-- disc point picking gives the uniform distribution on the disc -/
theorem map_pick {R : ℝ} (hR : 0 < R) : (unif.prod unif).map (pick R) = uniformOver (disc R) := by
  set S : Set (ℝ × ℝ) := Set.Ioo (0 : ℝ) 1 ×ˢ Set.Ioo (0 : ℝ) 1 with hS
  have hSm : MeasurableSet S := measurableSet_Ioo.prod measurableSet_Ioo
  have key : ∀ T ⊆ S, MeasurableSet T → volume (pick R '' T) = ENNReal.ofReal (Real.pi * R ^ 2) * volume T := by
    intro T hT hTm
    rw [← lintegral_abs_det_fderiv_eq_addHaar_image volume hTm
      (fun x hx => (hasFDerivAt_pick R (hT hx).1.1).hasFDerivWithinAt) ((injOn_pick hR).mono hT)]
    rw [setLIntegral_congr_fun hTm (g := fun _ => ENNReal.ofReal (Real.pi * R ^ 2))]
    · simp
    · intro x hx
      simp only
      rw [det_pick' R (hT hx).1.1, abs_of_pos (by have := Real.pi_pos; positivity)]
  have himg : pick R '' S ⊆ disc R := by
    rintro _ ⟨⟨u, v⟩, ⟨⟨hu0, hu1⟩, -⟩, rfl⟩
    simp only [pick, disc, Set.mem_ofPred_eq] at *
    have a := Real.sin_sq_add_cos_sq (2 * Real.pi * v)
    have c := Real.sq_sqrt hu0.le
    calc (√u * R * Real.cos (2 * Real.pi * v)) ^ 2 + (√u * R * Real.sin (2 * Real.pi * v)) ^ 2 = u * R ^ 2 := by
          linear_combination R ^ 2 * c + √u ^ 2 * R ^ 2 * a
      _ ≤ R ^ 2 := by nlinarith [sq_nonneg R]
  have hSvol : volume S = 1 := by
    rw [hS]; change (volume.prod volume) _ = 1
    rw [Measure.prod_prod]; simp
  have hpos : 0 < Real.pi * R ^ 2 := by have := Real.pi_pos; positivity
  have himgm : MeasurableSet (pick R '' S) :=
    measurable_image_of_fderivWithin hSm (fun x hx => (hasFDerivAt_pick R hx.1.1).hasFDerivWithinAt) (injOn_pick hR)
  have hae : (pick R '' S : Set (ℝ × ℝ)) =ᵐ[volume] disc R := by
    refine ae_eq_of_subset_of_measure_ge himg ?_ himgm.nullMeasurableSet ?_
    · rw [key S subset_rfl hSm, hSvol, volume_disc hR.le, mul_one]
    · rw [volume_disc hR.le]; exact ENNReal.ofReal_ne_top
  ext A hA
  rw [Measure.map_apply (measurable_pick R) hA, unif_prod_unif, Measure.restrict_apply (measurable_pick R hA)]
  have h1 := key (pick R ⁻¹' A ∩ S) Set.inter_subset_right ((measurable_pick R hA).inter hSm)
  rw [Set.image_preimage_inter] at h1
  have h2 : volume (A ∩ pick R '' S) = volume (A ∩ disc R) := measure_congr ((ae_eq_refl A).inter hae)
  simp only [uniformOver, Measure.smul_apply, smul_eq_mul]
  rw [Measure.restrict_apply hA, ← h2, h1, volume_disc hR.le, ← mul_assoc, ENNReal.inv_mul_cancel, one_mul]
  · exact (ENNReal.ofReal_pos.mpr hpos).ne'
  · exact ENNReal.ofReal_ne_top

variable {nt : ℕ}

/-- `rng.uniform(a, b)` is uniform between `a` and `b` -/
theorem map_uniform {a b : ℝ} (hab : a < b) : unif.map (fun u => a + (b - a) * u) = uniformOver (Set.Ico a b) := by
  have hm : Measurable fun u : ℝ => a + (b - a) * u := by fun_prop
  have hd : 0 < b - a := by linarith
  ext A hA
  rw [Measure.map_apply hm hA, unif, Measure.restrict_apply (hm hA)]
  simp only [uniformOver, Measure.smul_apply, smul_eq_mul]
  rw [Measure.restrict_apply hA, Real.volume_Ico]
  have hset : (fun u : ℝ => a + (b - a) * u) ⁻¹' A ∩ Set.Ico 0 1 =
      (fun u => (b - a) * u) ⁻¹' ((fun v => a + v) ⁻¹' (A ∩ Set.Ico a b)) := by
    ext u
    simp only [Set.mem_inter_iff, Set.mem_preimage, Set.mem_Ico]
    constructor
    · rintro ⟨h1, h2, h3⟩; exact ⟨h1, by nlinarith, by nlinarith⟩
    · rintro ⟨h1, h2, h3⟩
      refine ⟨h1, ?_, ?_⟩
      · by_contra h; push Not at h; nlinarith
      · by_contra h; push Not at h; nlinarith
  rw [hset, Real.volume_preimage_mul_left hd.ne', measure_preimage_add, abs_of_pos (inv_pos.mpr hd),
    ENNReal.ofReal_inv_of_pos hd]

/-- C104, film.  The generator delivers independent uniform numbers.  Then the start coordinates and the angles of incidence
of all photons — four numbers per photon — are independent of one another; the start points lie at z = 0 with both coordinates
uniform over the illuminated square; the angles are uniform between their limits when the user gives limits (and equal to the
limit when both limits are the same).  The first direction is the refraction (Snell, horizontal surface) of the direction with
those angles. -/
theorem C104_film_beam {Ω : Type} [MeasurableSpace Ω] (P : Measure Ω) [IsProbabilityMeasure P]
    (U : Fin nt × Fin 4 → Ω → ℝ) (hU : UniformDraws P U) (a : Args nt) (hf : a.boundary = .film)
    (hc : a.coarse_roughness = 0) (hm : 0 < a.n_medium) (hs : 0 < a.n_sample) (hspot : 0 < a.spot_size)
    (htd : a.theta_data = none) (hpd : a.phi_data = none) (out : Ω → Props0 nt)
    (hok : ∀ ω, initializeTraj { a with ux := fun j => U (j, 0) ω, uy := fun j => U (j, 1) ω, ut := fun j => U (j, 2) ω,
                                        up := fun j => U (j, 3) ω } = .ok (out ω)) :
    ∃ c : Fin nt × Fin 4 → Ω → ℝ, iIndepFun c P ∧
      (∀ ω j, (out ω).r0 0 j = finV (c (j, 0) ω) (c (j, 1) ω) 0) ∧
      (∀ ω j, a.n_medium * |Real.sin (c (j, 2) ω)| ≤ a.n_sample →
        ∃ k, (out ω).k0 0 j = ofV3 k ∧ RefractedAt a.n_medium a.n_sample ⟨0, 0, 1⟩ (polar (c (j, 2) ω) (c (j, 3) ω)) k) ∧
      (∀ j, P.map (c (j, 0)) = uniformOver (Set.Ico 0 a.spot_size)) ∧
      (∀ j, P.map (c (j, 1)) = uniformOver (Set.Ico 0 a.spot_size)) ∧
      (∀ j, (a.theta_min < a.theta_max → P.map (c (j, 2)) = uniformOver (Set.Ico a.theta_min a.theta_max)) ∧
        (a.theta_min = a.theta_max → ∀ ω, c (j, 2) ω = a.theta_min)) ∧
      (∀ j, (a.phi_min < a.phi_max → P.map (c (j, 3)) = uniformOver (Set.Ico a.phi_min a.phi_max)) ∧
        (a.phi_min = a.phi_max → ∀ ω, c (j, 3) ω = a.phi_min)) := by
  let lo : Fin 4 → ℝ := ![0, 0, a.theta_min, a.phi_min]
  let hi : Fin 4 → ℝ := ![a.spot_size, a.spot_size, a.theta_max, a.phi_max]
  let c : Fin nt × Fin 4 → Ω → ℝ := fun p ω => lo p.2 + (hi p.2 - lo p.2) * U p ω
  have hmc : ∀ k, Measurable fun u : ℝ => lo k + (hi k - lo k) * u := fun k => by fun_prop
  have hlaw : ∀ p, lo p.2 < hi p.2 → P.map (c p) = uniformOver (Set.Ico (lo p.2) (hi p.2)) := by
    intro p hp
    have : c p = (fun u => lo p.2 + (hi p.2 - lo p.2) * u) ∘ U p := rfl
    rw [this, ← Measure.map_map (hmc _) (hU.meas p), hU.law, map_uniform hp]
  have hconst : ∀ p, lo p.2 = hi p.2 → ∀ ω, c p ω = lo p.2 := by
    intro p hp ω; simp only [c, hp]; ring
  have hres : ∀ ω, (∀ j, (out ω).r0 0 j = finV (c (j, 0) ω) (c (j, 1) ω) 0) ∧
      ∀ j, (out ω).k0 0 j = direction (Root.refraction1 (fin (c (j, 2) ω)) (XF.abs (fin a.n_medium)) (XF.abs (fin a.n_sample)))
        (fin (Real.cos (c (j, 3) ω))) (fin (Real.sin (c (j, 3) ω))) := by
    intro ω
    have h := hok ω
    unfold initializeTraj at h
    simp only [hf, htd, hpd, incidence] at h
    split at h
    · cases h
    rw [enter, if_pos hc] at h
    injection h with h
    rw [← h]
    refine ⟨fun j => (firstRow_zero _ _).trans ?_, fun j => (firstRow_zero _ _).trans ?_⟩
    · change finV (U (j, 0) ω * a.spot_size) (U (j, 1) ω * a.spot_size) 0 =
        finV (0 + (a.spot_size - 0) * U (j, 0) ω) (0 + (a.spot_size - 0) * U (j, 1) ω) 0
      congr 1 <;> ring
    · rfl
  refine ⟨c, hU.indep.comp (fun p u => lo p.2 + (hi p.2 - lo p.2) * u) (fun p => hmc _), fun ω j => (hres ω).1 j, ?_,
    fun j => hlaw (j, 0) hspot, fun j => hlaw (j, 1) hspot, fun j => ⟨fun h => hlaw (j, 2) h, fun h => hconst (j, 2) h⟩,
    fun j => ⟨fun h => hlaw (j, 3) h, fun h => hconst (j, 3) h⟩⟩
  intro ω j hle
  exact ⟨_, ((hres ω).2 j).trans (direction_refr hs hle hm), refractedAt_z hs hle hm⟩

/-- C104, sphere.  The generator delivers independent uniform numbers.  Then the start points of the photons on a sphere,
seen along the beam, are independent and each uniformly distributed over the illuminated disc of diameter `spot_size`: equal
areas of the cross section receive equal amounts of light. -/
theorem C104_sphere_beam {Ω : Type} [MeasurableSpace Ω] (P : Measure Ω) [IsProbabilityMeasure P]
    (U : Fin nt × Fin 2 → Ω → ℝ) (hU : UniformDraws P U) (a : Args nt) (hb : a.boundary = .sphere)
    (hc : a.coarse_roughness = 0) (d : ℝ) (hd : a.sample_diameter = some d) (hspot : 0 < a.spot_size)
    (out : Ω → Props0 nt)
    (hok : ∀ ω, initializeTraj { a with ur := fun j => U (j, 0) ω, uth := fun j => U (j, 1) ω } = .ok (out ω)) :
    ∃ q : Fin nt → Ω → ℝ × ℝ, iIndepFun q P ∧
      (∀ ω j, ((out ω).r0 0 j).x = fin (q j ω).1 ∧ ((out ω).r0 0 j).y = fin (q j ω).2) ∧
      ∀ j, P.map (q j) = uniformOver (disc (a.spot_size / 2)) := by
  let q : Fin nt → Ω → ℝ × ℝ := fun j ω => pick (a.spot_size / 2) (U (j, 0) ω, U (j, 1) ω)
  refine ⟨q, ?_, ?_, ?_⟩
  · have h := (iIndepFun_curry hU.meas hU.indep).comp (fun _ (f : Fin 2 → ℝ) => pick (a.spot_size / 2) (f 0, f 1))
      (fun _ => (measurable_pick _).comp (by fun_prop))
    exact h
  · intro ω j
    obtain ⟨-, -, h3, -⟩ := sphere_result (a := { a with ur := fun j => U (j, 0) ω, uth := fun j => U (j, 1) ω }) hb hc hd (hok ω)
    rw [h3 j]
    simp only [spherePoint, q, pick]
    exact ⟨by congr 1; ring, by congr 1; ring⟩
  · intro j
    have h2 : P.map (fun ω => (U (j, 0) ω, U (j, 1) ω)) = unif.prod unif := by
      have := (indepFun_iff_map_prod_eq_prod_map_map (hU.meas (j, 0)).aemeasurable (hU.meas (j, 1)).aemeasurable).mp
        (hU.indep.indepFun (i := (j, 0)) (j := (j, 1)) (by simp))
      rw [hU.law, hU.law] at this
      exact this
    have : q j = pick (a.spot_size / 2) ∘ fun ω => (U (j, 0) ω, U (j, 1) ω) := rfl
    rw [this, ← Measure.map_map (measurable_pick _) ((hU.meas _).prodMk (hU.meas _)), h2, map_pick (by linarith)]

/-- The hypotheses of C104 are met: independent uniform streams exist and `initialize` succeeds on every outcome. -/
example : ∃ (Ω : Type) (_ : MeasurableSpace Ω) (P : Measure Ω) (U : Fin 3 × Fin 2 → Ω → ℝ) (out : Ω → Props0 3),
    IsProbabilityMeasure P ∧ UniformDraws P U ∧
    ∀ ω, initializeTraj (nt := 3) ⟨1, 3 / 2, .sphere, 0, 0, none, 0, 0, none, 1, some 2, 0, fun _ => 0, fun _ => 0,
      fun _ => 0, fun _ => 0, fun j => U (j, 0) ω, fun j => U (j, 1) ω, fun _ => 0⟩ = .ok (out ω) := by
  obtain ⟨Ω, mΩ, P, W, hP, hW⟩ := uniformDraws_exist (Fin 3 × Fin 2)
  have key : ∀ ω, ∃ p, initializeTraj (nt := 3) ⟨1, 3 / 2, .sphere, 0, 0, none, 0, 0, none, 1, some 2, 0, fun _ => 0,
      fun _ => 0, fun _ => 0, fun _ => 0, fun j => W (j, 0) ω, fun j => W (j, 1) ω, fun _ => 0⟩ = .ok p := by
    intro ω
    have h := (C38_initialize_validation (nt := 3) ⟨1, 3 / 2, .sphere, 0, 0, none, 0, 0, none, 1, some 2, 0, fun _ => 0,
      fun _ => 0, fun _ => 0, fun _ => 0, fun j => W (j, 0) ω, fun j => W (j, 1) ω, fun _ => 0⟩)
    apply h.2.1 (by simp)
    rw [ne_eq, h.1]
    simp
  choose out hout using key
  exact ⟨Ω, mΩ, P, W, out, hP, hW, hout⟩

end Verif.Props
