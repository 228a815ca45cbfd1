import Mathlib.Probability.StrongLaw
import Verif.SpecLimit
import Verif.Props.Estimator
import Verif.Props.Escape

/-!
# C137: with more and more trajectories, reflectance and transmittance converge
-/

namespace Verif.Props

open Classical MeasureTheory ProbabilityTheory Filter Topology Verif.Spec Verif.Traj Verif.Simulation Verif.Init Verif.Exits Verif.Geometry XF

/-! ## Law of large numbers for functions of groups of draws -/

section Law
variable {Ω κ : Type} [MeasurableSpace Ω] {P : Measure Ω} [IsProbabilityMeasure P]

/-- the draws of one photon -/
def group (U : ℕ × κ → Ω → ℝ) (j : ℕ) (ω : Ω) : κ → ℝ := fun q => U (j, q) ω

omit [IsProbabilityMeasure P] in
theorem group_meas {U : ℕ × κ → Ω → ℝ} (hU : UniformDraws P U) (j : ℕ) : Measurable (group U j) :=
  measurable_pi_lambda _ fun _ => hU.meas _

theorem group_law {U : ℕ × κ → Ω → ℝ} (hU : UniformDraws P U) (j : ℕ) :
    P.map (group U j) = Measure.infinitePi fun _ : κ => unif := by
  have h := hU.indep.precomp (g := fun q : κ => (j, q)) (fun q q' h => by simpa using h)
  have := (iIndepFun_iff_map_fun_eq_infinitePi_map (P := P) (X := fun q : κ => U (j, q)) fun q => hU.meas _).mp h
  refine this.trans ?_
  congr 1
  funext q
  exact hU.law _

theorem group_indep {U : ℕ × κ → Ω → ℝ} (hU : UniformDraws P U) : iIndepFun (group U) P := by
  rw [iIndepFun_iff_map_fun_eq_infinitePi_map (group_meas hU)]
  have e1 : P.map (fun ω x => U x ω) = Measure.infinitePi fun _ : ℕ × κ => unif := by
    rw [(iIndepFun_iff_map_fun_eq_infinitePi_map hU.meas).mp hU.indep]
    congr 1
    funext i
    exact hU.law i
  have e2 := Measure.infinitePi_map_curry (ι := ℕ) (κ := κ) (fun _ _ => unif)
  rw [← e1, Measure.map_map (MeasurableEquiv.measurable _) (measurable_pi_lambda _ fun x => hU.meas x)] at e2
  refine Eq.trans ?_ (e2.trans ?_)
  · rfl
  · congr 1
    funext j
    exact (group_law hU j).symm

/-- averages of a bounded function of the groups of draws converge to its mean -/
theorem group_average {U : ℕ × κ → Ω → ℝ} (hU : UniformDraws P U) {F : (κ → ℝ) → ℝ} (hF : Measurable F) {C : ℝ}
    (hC : ∀ ω, |F (group U 0 ω)| ≤ C) :
    ∀ᵐ ω ∂P, Tendsto (fun nt : ℕ => (∑ j : Fin (nt + 1), F (group U j ω)) / ((nt + 1 : ℕ) : ℝ)) atTop
      (𝓝 (∫ ω, F (group U 0 ω) ∂P)) := by
  have hm : ∀ j, Measurable fun ω => F (group U j ω) := fun j => hF.comp (group_meas hU j)
  have h := strong_law_ae_real (μ := P) (fun j ω => F (group U j ω))
    (Integrable.of_bound (hm 0).aestronglyMeasurable C (Eventually.of_forall hC))
    (fun i j hij => ((group_indep hU).indepFun hij).comp hF hF)
    (fun i => ⟨(hm i).aemeasurable, (hm 0).aemeasurable, by
      have e : ∀ j, P.map (fun ω => F (group U j ω)) = (Measure.infinitePi fun _ : κ => unif).map F := by
        intro j
        rw [← group_law hU j, Measure.map_map hF (group_meas hU j)]; rfl
      rw [e, e]⟩)
  filter_upwards [h] with ω hω
  refine (hω.comp (tendsto_add_atTop_nat 1)).congr fun nt => ?_
  simp only [Function.comp]
  rw [Finset.sum_range fun i => F (group U i ω)]

/-- a non-negative function of the draws with mean zero vanishes for all photons -/
theorem group_zero {U : ℕ × κ → Ω → ℝ} (hU : UniformDraws P U) {F : (κ → ℝ) → ℝ} (hF : Measurable F) {C : ℝ}
    (hC : ∀ ω, |F (group U 0 ω)| ≤ C) (h0 : ∀ ω, 0 ≤ F (group U 0 ω)) (hE : ∫ ω, F (group U 0 ω) ∂P = 0) :
    ∀ᵐ ω ∂P, ∀ j, F (group U j ω) = 0 := by
  have hm : ∀ j, Measurable fun ω => F (group U j ω) := fun j => hF.comp (group_meas hU j)
  have hi : Integrable (fun ω => F (group U 0 ω)) P := Integrable.of_bound (hm 0).aestronglyMeasurable C (Eventually.of_forall hC)
  have h := (integral_eq_zero_iff_of_nonneg h0 hi).mp hE
  have hlaw : ∀ᵐ x ∂(Measure.infinitePi fun _ : κ => unif), F x = 0 := by
    rw [← group_law hU 0]
    exact (ae_map_iff (group_meas hU 0).aemeasurable (measurableSet_eq_fun hF measurable_const)).mpr h
  rw [ae_all_iff]
  intro j
  rw [← group_law hU j] at hlaw
  exact ae_of_ae_map (group_meas hU j).aemeasurable hlaw

end Law

/-! ## The estimator as a function of averages -/

/-- averages of a sequence of photons converge to the given numbers -/
structure Averages (q : ℕ → Photon) (sR sT i bR bT s a eR eT : ℝ) : Prop where
  seenR : Tendsto (fun nt : ℕ => (∑ j : Fin (nt + 1), if (q j).seenR then (q j).outR * (q j).escR else 0) / ((nt + 1 : ℕ) : ℝ)) atTop (𝓝 sR)
  seenT : Tendsto (fun nt : ℕ => (∑ j : Fin (nt + 1), if (q j).seenT then (q j).outT * (q j).escT else 0) / ((nt + 1 : ℕ) : ℝ)) atTop (𝓝 sT)
  inc : Tendsto (fun nt : ℕ => (∑ j : Fin (nt + 1), if (q j).seenInc then 1 - (q j).enter else 0) / ((nt + 1 : ℕ) : ℝ)) atTop (𝓝 i)
  backR : Tendsto (fun nt : ℕ => (∑ j : Fin (nt + 1), (q j).outR * (1 - (q j).escR)) / ((nt + 1 : ℕ) : ℝ)) atTop (𝓝 bR)
  backT : Tendsto (fun nt : ℕ => (∑ j : Fin (nt + 1), (q j).outT * (1 - (q j).escT)) / ((nt + 1 : ℕ) : ℝ)) atTop (𝓝 bT)
  trapped : Tendsto (fun nt : ℕ => (∑ j : Fin (nt + 1), (q j).trapped) / ((nt + 1 : ℕ) : ℝ)) atTop (𝓝 s)
  absorbed : Tendsto (fun nt : ℕ => (∑ j : Fin (nt + 1), ((q j).enter - (q j).outR - (q j).outT - (q j).trapped)) / ((nt + 1 : ℕ) : ℝ)) atTop (𝓝 a)
  escR : Tendsto (fun nt : ℕ => (∑ j : Fin (nt + 1), (q j).outR * (q j).escR) / ((nt + 1 : ℕ) : ℝ)) atTop (𝓝 eR)
  escT : Tendsto (fun nt : ℕ => (∑ j : Fin (nt + 1), (q j).outT * (q j).escT) / ((nt + 1 : ℕ) : ℝ)) atTop (𝓝 eT)

theorem share_limit {x y : ℕ → ℝ} {s e : ℝ} (hx : Tendsto (fun nt : ℕ => x nt / ((nt + 1 : ℕ) : ℝ)) atTop (𝓝 s))
    (hy : Tendsto (fun nt : ℕ => y nt / ((nt + 1 : ℕ) : ℝ)) atTop (𝓝 e)) (hs : 0 ≤ s) (he : 0 ≤ e)
    (hz : e = 0 → ∀ nt, x nt = 0 ∧ y nt = 0) :
    Tendsto (fun nt => max (x nt) (1 / 10 ^ 9) / max (y nt) (1 / 10 ^ 9)) atTop (𝓝 (Photon.meanShare s e)) := by
  unfold Photon.meanShare
  by_cases h : e = 0
  · rw [if_pos h]
    refine tendsto_const_nhds.congr fun nt => ?_
    rw [(hz h nt).1, (hz h nt).2, div_self (by positivity)]
  · rw [if_neg h]
    have hε : Tendsto (fun nt : ℕ => (1 / 10 ^ 9 : ℝ) / ((nt + 1 : ℕ) : ℝ)) atTop (𝓝 0) :=
      (tendsto_const_div_atTop_nhds_zero_nat (1 / 10 ^ 9 : ℝ)).comp (tendsto_add_atTop_nat 1)
    have h1 := hx.max hε
    have h2 := hy.max hε
    rw [max_eq_left hs] at h1
    rw [max_eq_left he] at h2
    refine (h1.div h2 h).congr fun nt => ?_
    have hn : (0 : ℝ) < ((nt + 1 : ℕ) : ℝ) := by positivity
    simp only [Pi.div_apply]
    rw [max_div_div_right hn.le, max_div_div_right hn.le, div_div_div_cancel_right₀ hn.ne']

theorem estimator_limit {q : ℕ → Photon} {sR sT i bR bT s a eR eT : ℝ} (A : Averages q sR sT i bR bT s a eR eT)
    (hsR : 0 ≤ sR) (hsT : 0 ≤ sT) (heR : 0 ≤ eR) (heT : 0 ≤ eT) (hk : a + eR + eT ≠ 0)
    (hzR : eR = 0 → ∀ j, (q j).outR * (q j).escR = 0) (hzT : eT = 0 → ∀ j, (q j).outT * (q j).escT = 0) :
    (∀ᶠ nt in atTop, Photon.known (fun j : Fin (nt + 1) => q j) ≠ 0) ∧
    Tendsto (fun nt => ∑ j, Photon.refl (fun j : Fin (nt + 1) => q j) j) atTop
      (𝓝 (sR + i + (bR * (eR / (a + eR + eT)) + bT * (eT / (a + eR + eT)) + s / 2) * Photon.meanShare sR eR)) ∧
    Tendsto (fun nt => ∑ j, Photon.trans (fun j : Fin (nt + 1) => q j) j) atTop
      (𝓝 (sT + (bT * (eR / (a + eR + eT)) + bR * (eT / (a + eR + eT)) + s / 2) * Photon.meanShare sT eT)) := by
  have hn : ∀ nt : ℕ, ((nt + 1 : ℕ) : ℝ) ≠ 0 := fun nt => by positivity
  have hkn : Tendsto (fun nt : ℕ => Photon.known (fun j : Fin (nt + 1) => q j) / ((nt + 1 : ℕ) : ℝ)) atTop (𝓝 (a + eR + eT)) := by
    refine ((A.absorbed.add A.escR).add A.escT).congr fun nt => ?_
    simp only [Photon.known, Photon.absorbed, Photon.escapedR, Photon.escapedT, ← add_div]
  have hratio : ∀ {x : ℕ → ℝ} {l : ℝ}, Tendsto (fun nt : ℕ => x nt / ((nt + 1 : ℕ) : ℝ)) atTop (𝓝 l) →
      Tendsto (fun nt : ℕ => x nt / Photon.known (fun j : Fin (nt + 1) => q j)) atTop (𝓝 (l / (a + eR + eT))) := by
    intro x l hx
    refine (hx.div hkn hk).congr fun nt => ?_
    simp only [Pi.div_apply]
    rw [div_div_div_cancel_right₀ (hn nt)]
  have hR := hratio A.escR
  have hT := hratio A.escT
  have hshR := share_limit A.seenR A.escR hsR heR fun h nt =>
    ⟨Finset.sum_eq_zero fun j _ => by rw [hzR h]; simp, Finset.sum_eq_zero fun j _ => hzR h j⟩
  have hshT := share_limit A.seenT A.escT hsT heT fun h nt =>
    ⟨Finset.sum_eq_zero fun j _ => by rw [hzT h]; simp, Finset.sum_eq_zero fun j _ => hzT h j⟩
  refine ⟨?_, ?_, ?_⟩
  · filter_upwards [hkn.eventually_ne hk] with nt h h0
    rw [h0, zero_div] at h
    exact h rfl
  · refine ((A.seenR.add A.inc).add ((((A.backR.mul hR).add (A.backT.mul hT)).add (A.trapped.div_const 2)).mul hshR)).congr fun nt => ?_
    simp only [Photon.refl, ← Finset.sum_div, Finset.sum_add_distrib, ← Finset.sum_mul, Photon.escapedR, Photon.escapedT,
      Photon.shareR]
    field_simp
  · refine (A.seenT.add ((((A.backT.mul hR).add (A.backR.mul hT)).add (A.trapped.div_const 2)).mul hshT)).congr fun nt => ?_
    simp only [Photon.trans, ← Finset.sum_div, Finset.sum_add_distrib, ← Finset.sum_mul, Photon.escapedR, Photon.escapedT,
      Photon.shareT]
    field_simp

/-! ## One photon is a measurable function of its heights, directions and weights -/

section Meas
variable {X : Type} [MeasurableSpace X]

theorem meas_prop_ite {p : X → Prop} (hp : MeasurableSet {x | p x}) {f g : X → ℝ} (hf : Measurable f) (hg : Measurable g) :
    Measurable fun x => if p x then f x else g x := Measurable.ite hp hf hg

theorem firstCrossed_meas {u0 u1 : X → ℝ} (h0 : Measurable u0) (h1 : Measurable u1) (b : ℤ) :
    MeasurableSet {x | FirstCrossed (u0 x) (u1 x) b} := by
  unfold FirstCrossed
  have hc : ∀ c : ℤ, MeasurableSet {x | u0 x < c} := fun c => measurableSet_lt h0 measurable_const
  have hc' : ∀ c : ℤ, MeasurableSet {x | (c : ℝ) ≤ u0 x} := fun c => measurableSet_le measurable_const h0
  have e1 : MeasurableSet {x | ∀ c : ℤ, u0 x < c → b ≤ c} := by
    have : {x | ∀ c : ℤ, u0 x < c → b ≤ c} = ⋂ c : ℤ, {x | u0 x < c → b ≤ c} := by ext; simp
    rw [this]
    refine MeasurableSet.iInter fun c => ?_
    by_cases h : b ≤ c
    · simp [h]
    · have : {x | u0 x < c → b ≤ c} = {x | u0 x < c}ᶜ := by ext; simp [h]
      rw [this]; exact (hc c).compl
  have e2 : MeasurableSet {x | ∀ c : ℤ, (c : ℝ) ≤ u0 x → c ≤ b} := by
    have : {x | ∀ c : ℤ, (c : ℝ) ≤ u0 x → c ≤ b} = ⋂ c : ℤ, {x | (c : ℝ) ≤ u0 x → c ≤ b} := by ext; simp
    rw [this]
    refine MeasurableSet.iInter fun c => ?_
    by_cases h : c ≤ b
    · simp [h]
    · have : {x | (c : ℝ) ≤ u0 x → c ≤ b} = {x | (c : ℝ) ≤ u0 x}ᶜ := by ext; simp [h]
      rw [this]; exact (hc' c).compl
  have f1 : MeasurableSet {x | u1 x < b} := measurableSet_lt h1 measurable_const
  have f2 : MeasurableSet {x | (b : ℝ) ≤ u1 x} := measurableSet_le measurable_const h1
  exact ((hc b).inter (f2.inter e1)).union (f1.inter ((hc' b).inter e2))

variable {nev : ℕ} {z : X → Fin (nev + 1) → ℝ} {kz : X → Fin nev → ℝ}

theorem leaves_meas (n nm bot top f : ℝ) (hz : ∀ e, Measurable fun x => z x e) (hk : ∀ e, Measurable fun x => kz x e) (e : Fin nev) :
    MeasurableSet {x | LeavesThrough n nm bot top f (z x) (kz x) e} := by
  unfold LeavesThrough
  have h1 : MeasurableSet {x | n * Real.sqrt (1 - kz x e ^ 2) < nm} :=
    measurableSet_lt (measurable_const.mul (measurable_const.sub ((hk e).pow_const 2)).sqrt) measurable_const
  suffices h2 : MeasurableSet {x | ∃ b : ℤ, FirstCrossed ((z x e.castSucc - bot) / (top - bot)) ((z x e.succ - bot) / (top - bot)) b ∧
      bot + fold b * (top - bot) = f} from h1.inter h2
  have : {x | ∃ b : ℤ, FirstCrossed ((z x e.castSucc - bot) / (top - bot)) ((z x e.succ - bot) / (top - bot)) b ∧
      bot + fold b * (top - bot) = f} = ⋃ b : ℤ, {x | FirstCrossed ((z x e.castSucc - bot) / (top - bot)) ((z x e.succ - bot) / (top - bot)) b ∧
      bot + fold b * (top - bot) = f} := by ext; simp
  rw [this]
  refine MeasurableSet.iUnion fun b => ?_
  exact (firstCrossed_meas (((hz _).sub_const _).div_const _) (((hz _).sub_const _).div_const _) b).inter (MeasurableSet.const _)

theorem fate_meas (n nm bot top : ℝ) (hz : ∀ e, Measurable fun x => z x e) (hk : ∀ e, Measurable fun x => kz x e) (f : Fate nev) :
    MeasurableSet {x | IsFate n nm bot top (z x) (kz x) f} := by
  have hall : ∀ (c : Fin nev → Prop), MeasurableSet {x | ∀ e', c e' → ¬ LeavesThrough n nm bot top bot (z x) (kz x) e' ∧
      ¬ LeavesThrough n nm bot top top (z x) (kz x) e'} := by
    intro c
    have : {x | ∀ e', c e' → ¬ LeavesThrough n nm bot top bot (z x) (kz x) e' ∧ ¬ LeavesThrough n nm bot top top (z x) (kz x) e'} =
      ⋂ e', {x | c e' → ¬ LeavesThrough n nm bot top bot (z x) (kz x) e' ∧ ¬ LeavesThrough n nm bot top top (z x) (kz x) e'} := by ext; simp
    rw [this]
    refine MeasurableSet.iInter fun e' => ?_
    by_cases h : c e'
    · simp only [h, true_imp_iff]
      exact (leaves_meas n nm bot top bot hz hk e').compl.inter (leaves_meas n nm bot top top hz hk e').compl
    · simp [h]
  cases f with
  | reflected e => exact (leaves_meas n nm bot top bot hz hk e).inter (hall _)
  | transmitted e => exact (leaves_meas n nm bot top top hz hk e).inter (hall _)
  | trapped =>
    have := hall fun _ => True
    simp only [true_imp_iff] at this
    exact this

theorem filmFate_iff (n nm : ℝ) {bot top : ℝ} (h : bot < top) (z : Fin (nev + 1) → ℝ) (kz : Fin nev → ℝ) (f : Fate nev) :
    filmFate n nm bot top z kz = f ↔ IsFate n nm bot top z kz f := by
  obtain ⟨g, hg, hu⟩ := fate_exists_unique n nm h z kz
  have hex : ∃ f, IsFate n nm bot top z kz f := ⟨g, hg⟩
  have e : filmFate n nm bot top z kz = hex.choose := by unfold filmFate; rw [dif_pos hex]
  rw [e]
  refine ⟨fun h => h ▸ hex.choose_spec, fun h => (hu _ hex.choose_spec).trans (hu _ h).symm⟩

theorem valueAt_eq (f : Option (Fin nev)) (a : Fin nev → ℝ) : valueAt f a = ∑ e, if f = some e then a e else 0 := by
  cases f with
  | none => simp [valueAt]
  | some g => simp [valueAt]

theorem valueAt_meas {g : Fate nev → Option (Fin nev)} {n nm bot top : ℝ} (h : bot < top) (hz : ∀ e, Measurable fun x => z x e)
    (hk : ∀ e, Measurable fun x => kz x e) {a : X → Fin nev → ℝ} (ha : ∀ e, Measurable fun x => a x e)
    (hg : ∀ e, ∃ f, ∀ f', g f' = some e ↔ f' = f ) :
    Measurable fun x => valueAt (g (filmFate n nm bot top (z x) (kz x))) (a x) := by
  simp only [valueAt_eq]
  refine Finset.measurable_sum _ fun e _ => ?_
  obtain ⟨f, hf⟩ := hg e
  simp only [hf, filmFate_iff n nm h]
  exact meas_prop_ite (fate_meas n nm bot top hz hk f) (ha e) measurable_const

theorem platePass_meas (n1 : ℝ) (plate : Option ℝ) (n2 : ℝ) : Measurable (platePass n1 plate n2) := by
  unfold platePass fresnelR
  simp only
  have harc : Measurable Real.arcsin := Real.continuous_arcsin.measurable
  refine Measurable.ite ?_ measurable_const ?_
  · refine MeasurableSet.union (s₁ := {θ | plate.getD n1 ≤ n1 * Real.sin θ}) (measurableSet_le measurable_const (by fun_prop))
      (MeasurableSet.union (s₁ := {θ | n2 ≤ n1 * Real.sin θ}) (s₂ := {θ | θ = Real.pi / 2}) (measurableSet_le measurable_const (by fun_prop)) ?_)
    exact measurableSet_eq_fun measurable_id measurable_const
  · fun_prop

theorem seen_meas {n nm : ℝ} (limit : ℝ) (hm : 0 < nm) : MeasurableSet {θ | SeenWithin n nm limit θ} := by
  have : {θ | SeenWithin n nm limit θ} = {θ | |n * Real.sin θ / nm| ≤ 1} ∩ {θ | Real.arcsin (n * Real.sin θ / nm) ≤ limit} := by
    ext θ
    simp only [SeenWithin, IsRefractionAngle, Snell, Set.mem_ofPred_eq, Set.mem_inter_iff]
    constructor
    · rintro ⟨φ, ⟨h1, h2⟩, h3, h4⟩
      have e : n * Real.sin θ / nm = Real.sin φ := by rw [h3]; field_simp
      rw [e, Real.arcsin_sin h1 h2]
      exact ⟨Real.abs_sin_le_one φ, h4⟩
    · rintro ⟨h1, h2⟩
      refine ⟨_, ⟨Real.neg_pi_div_two_le_arcsin _, Real.arcsin_le_pi_div_two _⟩, ?_, h2⟩
      rw [Real.sin_arcsin (abs_le.mp h1).1 (abs_le.mp h1).2]
      field_simp
  rw [this]
  have harc : Measurable Real.arcsin := Real.continuous_arcsin.measurable
  exact (measurableSet_le (by fun_prop) measurable_const).inter (measurableSet_le (by fun_prop) measurable_const)

end Meas

/-- all the numbers of a photon depend measurably on `x` -/
structure PhotonMeas {X : Type} [MeasurableSpace X] (p : X → Photon) : Prop where
  enter : Measurable fun x => (p x).enter
  outR : Measurable fun x => (p x).outR
  outT : Measurable fun x => (p x).outT
  trapped : Measurable fun x => (p x).trapped
  escR : Measurable fun x => (p x).escR
  escT : Measurable fun x => (p x).escT
  seenR : MeasurableSet {x | (p x).seenR}
  seenT : MeasurableSet {x | (p x).seenT}
  seenInc : MeasurableSet {x | (p x).seenInc}

theorem smoothPhoton_meas {X : Type} [MeasurableSpace X] {nev : ℕ} {o : FilmOptics} {bot top : ℝ} (h : bot < top) (ho : 0 < o.outside)
    {z : X → Fin (nev + 2) → ℝ} {kz w : X → Fin (nev + 1) → ℝ} (hz : ∀ e, Measurable fun x => z x e)
    (hk : ∀ e, Measurable fun x => kz x e) (hw : ∀ e, Measurable fun x => w x e) :
    PhotonMeas fun x => smoothPhoton o bot top (z x) (kz x) (w x) := by
  have harc : Measurable Real.arcsin := Real.continuous_arcsin.measurable
  have hacos : Measurable Real.arccos := Real.continuous_arccos.measurable
  have habs : Measurable fun x : ℝ => |x| := continuous_abs.measurable
  have hgR : ∀ e : Fin (nev + 1), ∃ f, ∀ f', Fate.reflEvent f' = some e ↔ f' = f := fun e =>
    ⟨.reflected e, fun f' => by cases f' <;> simp [Fate.reflEvent]⟩
  have hgT : ∀ e : Fin (nev + 1), ∃ f, ∀ f', Fate.transEvent f' = some e ↔ f' = f := fun e =>
    ⟨.transmitted e, fun f' => by cases f' <;> simp [Fate.transEvent]⟩
  have hR : ∀ {a : X → Fin (nev + 1) → ℝ}, (∀ e, Measurable fun x => a x e) → Measurable fun x =>
      valueAt (filmFate o.surface o.outside bot top (z x) (kz x)).reflEvent (a x) := fun ha => valueAt_meas h hz hk ha hgR
  have hT : ∀ {a : X → Fin (nev + 1) → ℝ}, (∀ e, Measurable fun x => a x e) → Measurable fun x =>
      valueAt (filmFate o.surface o.outside bot top (z x) (kz x)).transEvent (a x) := fun ha => valueAt_meas h hz hk ha hgT
  have hS : Measurable fun x => valueAt (filmFate o.surface o.outside bot top (z x) (kz x)).lastEvent (w x) := by
    have : (fun x => valueAt (filmFate o.surface o.outside bot top (z x) (kz x)).lastEvent (w x)) = fun x =>
        if IsFate o.surface o.outside bot top (z x) (kz x) .trapped then w x (Fin.last nev) else 0 := by
      funext x
      rw [← filmFate_iff _ _ h]
      cases filmFate o.surface o.outside bot top (z x) (kz x) <;> simp [valueAt, Fate.lastEvent]
    rw [this]
    exact meas_prop_ite (fate_meas _ _ _ _ hz hk _) (hw _) measurable_const
  have hk0 : Measurable fun x => Real.arccos |kz x 0| := hacos.comp (habs.comp (hk 0))
  have hent : Measurable fun x => platePass o.outside o.front o.surface (Real.arcsin (o.surface / o.outside * Real.sin (Real.arccos |kz x 0|))) :=
    (platePass_meas _ _ _).comp (harc.comp (measurable_const.mul hk0.sin))
  have hθR : Measurable fun x => Real.arccos |valueAt (filmFate o.surface o.outside bot top (z x) (kz x)).reflEvent fun e => kz x e| :=
    hacos.comp (habs.comp (hR hk))
  have hθT : Measurable fun x => Real.arccos |valueAt (filmFate o.surface o.outside bot top (z x) (kz x)).transEvent fun e => kz x e| :=
    hacos.comp (habs.comp (hT hk))
  exact ⟨hent, hent.mul (hR hw), hent.mul (hT hw), hent.mul hS, (platePass_meas _ _ _).comp hθR, (platePass_meas _ _ _).comp hθT,
    (seen_meas o.limit ho).preimage hθR, (seen_meas o.limit ho).preimage hθT, measurableSet_le hk0 measurable_const⟩

/-! ## The columns of a simulation -/

/-- the uniform numbers one photon of a simulation consumes: for its angles of incidence, and for each event one for the scattering angle, one
for the azimuth and one for the length of the step -/
inductive Draw where
  | beamTheta
  | beamPhi
  | angle (i : ℕ)
  | azimuth (i : ℕ)
  | step (i : ℕ)

/-- Simulations of a smooth film with `nt + 1` trajectories, for every `nt`, with the same beam, phase function and coefficients, all fed from one
stream of numbers: photon `j` uses the numbers `U (j, ·)`. -/
structure StreamRun {Ω : Type} {n : ℕ} (U : ℕ × Draw → Ω → ℝ) (θ0 θ1 φ0 φ1 : ℝ) (p : Fin (n + 1) → ℝ) (m mu mua : ℝ)
    (a : (nt : ℕ) → Ω → Args (nt + 1)) (S : (nt : ℕ) → Ω → Sampling (nt + 1) (n + 1)) : Prop where
  smooth : ∀ nt ω, (a nt ω).coarse_roughness = 0
  theta_data : ∀ nt ω, (a nt ω).theta_data = none
  phi_data : ∀ nt ω, (a nt ω).phi_data = none
  theta_min : ∀ nt ω, (a nt ω).theta_min = θ0
  theta_max : ∀ nt ω, (a nt ω).theta_max = θ1
  phi_min : ∀ nt ω, (a nt ω).phi_min = φ0
  phi_max : ∀ nt ω, (a nt ω).phi_max = φ1
  beam_theta : ∀ nt ω (j : Fin (nt + 1)), (a nt ω).ut j = U (j, .beamTheta) ω
  beam_phi : ∀ nt ω (j : Fin (nt + 1)), (a nt ω).up j = U (j, .beamPhi) ω
  phase : ∀ nt ω, (S nt ω).p = p
  min_angle : ∀ nt ω, (S nt ω).min_angle = m
  mu_scat : ∀ nt ω, (S nt ω).mu_scat = mu
  no_mie : ∀ nt ω, (S nt ω).mu_scat_mie = none
  mu_abs : ∀ nt ω, (S nt ω).mu_abs = mua
  draw_theta : ∀ nt ω i (j : Fin (nt + 1)), (S nt ω).draw_theta i j = choiceIndex (probTheta p m) (U (j, .angle i) ω)
  rand_phi : ∀ nt ω i (j : Fin (nt + 1)), (S nt ω).rand_phi i j = U (j, .azimuth i) ω
  rand_step : ∀ nt ω i (j : Fin (nt + 1)), (S nt ω).rand_step i j = U (j, .step i) ω

section Column
variable {n : ℕ} (θ0 θ1 φ0 φ1 : ℝ) (p : Fin (n + 1) → ℝ) (m mu mua nm ns : ℝ)

noncomputable def colK (x : Draw → ℝ) : ℕ → V3
  | 0 => ⟨nm / ns * Real.sin (uniform θ0 θ1 (x .beamTheta)) * Real.cos (uniform φ0 φ1 (x .beamPhi)),
      nm / ns * Real.sin (uniform θ0 θ1 (x .beamTheta)) * Real.sin (uniform φ0 φ1 (x .beamPhi)),
      Real.sqrt (1 - (nm / ns * Real.sin (uniform θ0 θ1 (x .beamTheta))) ^ 2)⟩
  | i + 1 =>
    turn (Real.sin (linspace m Real.pi (n + 1) (choiceIndex (probTheta p m) (x (.angle i)))))
      (Real.cos (linspace m Real.pi (n + 1) (choiceIndex (probTheta p m) (x (.angle i)))))
      (Real.sin (2 * Real.pi * x (.azimuth i))) (Real.cos (2 * Real.pi * x (.azimuth i))) (colK x i)

noncomputable def colS (x : Draw → ℝ) (i : ℕ) : ℝ := -Real.log (1 - x (.step i)) / mu

noncomputable def colZ (x : Draw → ℝ) : ℕ → ℝ
  | 0 => 0
  | i + 1 => colZ x i + colS mu x i * (colK θ0 θ1 φ0 φ1 p m nm ns x i).z

noncomputable def colW (x : Draw → ℝ) (i : ℕ) : ℝ := Real.exp (-(mua * cumsum (fun e => colS mu x e) i))

theorem colK_meas (i : ℕ) :
    Measurable (fun x => (colK θ0 θ1 φ0 φ1 p m nm ns x i).x) ∧ Measurable (fun x => (colK θ0 θ1 φ0 φ1 p m nm ns x i).y) ∧
      Measurable (fun x => (colK θ0 θ1 φ0 φ1 p m nm ns x i).z) := by
  induction i with
  | zero =>
    simp only [colK, uniform]
    refine ⟨by fun_prop, by fun_prop, by fun_prop⟩
  | succ i ih =>
    obtain ⟨h1, h2, h3⟩ := ih
    have hl : Measurable fun x : Draw → ℝ => linspace m Real.pi (n + 1) (choiceIndex (probTheta p m) (x (.angle i)) : Fin (n + 1)) :=
      (measurable_of_countable fun k : Fin (n + 1) => linspace m Real.pi (n + 1) k).comp
        ((measurable_choiceIndex _).comp (measurable_pi_apply _))
    have hst := hl.sin
    have hct := hl.cos
    simp only [colK, turn]
    refine ⟨by fun_prop, by fun_prop, by fun_prop⟩

theorem colS_meas (i : ℕ) : Measurable fun x => colS mu x i := by
  unfold colS; fun_prop

theorem colZ_meas (i : ℕ) : Measurable fun x => colZ θ0 θ1 φ0 φ1 p m mu nm ns x i := by
  induction i with
  | zero => exact measurable_const
  | succ i ih => exact ih.add ((colS_meas mu i).mul (colK_meas θ0 θ1 φ0 φ1 p m nm ns i).2.2)

theorem colW_meas (i : ℕ) : Measurable fun x => colW mu mua x i := by
  unfold colW
  have : Measurable fun x => cumsum (fun e => colS mu x e) i := by
    induction i with
    | zero => exact colS_meas mu 0
    | succ i ih => exact ih.add (colS_meas mu (i + 1))
  fun_prop

variable {θ0 θ1 φ0 φ1 p m mu mua nm ns}

theorem column {Ω : Type} {U : ℕ × Draw → Ω → ℝ} {a : (nt : ℕ) → Ω → Args (nt + 1)} {S : (nt : ℕ) → Ω → Sampling (nt + 1) (n + 1)}
    {d : DetArgs} (R : StreamRun U θ0 θ1 φ0 φ1 p m mu mua a S) {nt : ℕ} {ω : Ω} (H : FilmRun (a nt ω) (S nt ω) d) {nev : ℕ} {t : Trajs (nt + 1)}
    (ht : simulate (nev + 1) (a nt ω) (S nt ω) = .ok t) (j : Fin (nt + 1)) :
    (∀ i, i ≤ nev → t.direction i j = colK θ0 θ1 φ0 φ1 p m d.n_medium d.n_sample (group U j ω) i) ∧
    (∀ i, i ≤ nev + 1 → (t.position i j).z = colZ θ0 θ1 φ0 φ1 p m mu d.n_medium d.n_sample (group U j ω) i) ∧
    ∀ i, t.weight i j = colW mu mua (group U j ω) i := by
  have hmu : 0 < mu := (R.mu_scat nt ω) ▸ H.mu_scat
  have hm : 0 < d.n_medium := H.medium_pos
  have hs : 0 < d.n_sample := hm.trans_le H.not_denser
  unfold simulate at ht
  rcases hi : initializeTraj (a nt ω) with e | p0
  · rw [hi] at ht; simp only [Bind.bind, Except.bind] at ht; cases ht
  rw [hi] at ht
  simp only [Bind.bind, Except.bind] at ht
  rcases ha : sampleAngles1 (nev + 1) (S nt ω).p (S nt ω).min_angle (S nt ω).draw_theta (S nt ω).rand_phi with e | ang
  · rw [ha] at ht; cases ht
  rw [ha] at ht
  simp only at ht
  have hst : sampleStep (nt + 1) (S nt ω).mu_scat (S nt ω).mu_scat_mie (S nt ω).fine_roughness (S nt ω).rand_step (S nt ω).rand_mie =
      .ok fun i j => fin (-Real.log (1 - (S nt ω).rand_step i j) / mu) := by
    simp only [sampleStep, R.mu_scat, R.no_mie]
    rw [if_neg (by push Not; exact ⟨H.fine_step.2, H.fine_step.1⟩)]
    congr 1
    funext i j
    exact fin_div _ hmu.ne'
  rw [hst] at ht
  simp only [Pure.pure, Except.pure] at ht
  injection ht with ht
  subst ht
  have hang : ang = mkAngles (nev + 1 - 1) (fun i j => linspace (S nt ω).min_angle Real.pi (n + 1) ((S nt ω).draw_theta i j))
      (fun i j => 2 * Real.pi * (S nt ω).rand_phi i j) := by
    unfold sampleAngles1 at ha
    dsimp only at ha
    split at ha
    · injection ha with ha; exact ha.symm
    · cases ha
  subst hang
  have hstep : ∀ e, val (fin (-Real.log (1 - (S nt ω).rand_step e j) / mu)) = colS mu (group U j ω) e := by
    intro e
    show -Real.log (1 - (S nt ω).rand_step e j) / mu = _
    rw [R.rand_step]; rfl
  -- what initialize delivers
  unfold initializeTraj at hi
  rw [H.film] at hi
  simp only at hi
  split at hi
  · cases hi
  have hθ : incidence (a nt ω).theta_data (a nt ω).theta_min (a nt ω).theta_max (a nt ω).ut =
      .ok fun j => uniform θ0 θ1 (U (j, .beamTheta) ω) := by
    simp only [incidence, R.theta_data, R.theta_min, R.theta_max, R.beam_theta]
  have hφ : incidence (a nt ω).phi_data (a nt ω).phi_min (a nt ω).phi_max (a nt ω).up =
      .ok fun j => uniform φ0 φ1 (U (j, .beamPhi) ω) := by
    simp only [incidence, R.phi_data, R.phi_min, R.phi_max, R.beam_phi]
  rw [hθ] at hi
  simp only at hi
  rw [hφ] at hi
  simp only at hi
  rw [enter, if_pos (R.smooth nt ω)] at hi
  injection hi with hi
  subst hi
  have hl := scatter_loop (fun i j => valV (firstRow (fun j => direction (Root.refraction1 (fin (uniform θ0 θ1 (U (j, .beamTheta) ω)))
    (XF.abs (fin (a nt ω).n_medium)) (XF.abs (fin (a nt ω).n_sample))) (fin (Real.cos (uniform φ0 φ1 (U (j, .beamPhi) ω))))
    (fin (Real.sin (uniform φ0 φ1 (U (j, .beamPhi) ω))))) i j))
    (fun i j => Real.sin (linspace (S nt ω).min_angle Real.pi (n + 1) ((S nt ω).draw_theta i j)))
    (fun i j => Real.cos (linspace (S nt ω).min_angle Real.pi (n + 1) ((S nt ω).draw_theta i j)))
    (fun i j => Real.sin (2 * Real.pi * (S nt ω).rand_phi i j)) (fun i j => Real.cos (2 * Real.pi * (S nt ω).rand_phi i j)) nev
  have hdir : ∀ i, i ≤ nev → scatter (nev + 1) (fun i j => valV (firstRow (fun j => direction (Root.refraction1 (fin (uniform θ0 θ1 (U (j, .beamTheta) ω)))
    (XF.abs (fin (a nt ω).n_medium)) (XF.abs (fin (a nt ω).n_sample))) (fin (Real.cos (uniform φ0 φ1 (U (j, .beamPhi) ω))))
    (fin (Real.sin (uniform φ0 φ1 (U (j, .beamPhi) ω))))) i j))
    (fun i j => Real.sin (linspace (S nt ω).min_angle Real.pi (n + 1) ((S nt ω).draw_theta i j)))
    (fun i j => Real.cos (linspace (S nt ω).min_angle Real.pi (n + 1) ((S nt ω).draw_theta i j)))
    (fun i j => Real.sin (2 * Real.pi * (S nt ω).rand_phi i j)) (fun i j => Real.cos (2 * Real.pi * (S nt ω).rand_phi i j)) i j =
      colK θ0 θ1 φ0 φ1 p m d.n_medium d.n_sample (group U j ω) i := by
    intro i
    induction i with
    | zero =>
      intro _
      refine (congrFun hl.1 j).trans ?_
      have hin : d.n_medium * |Real.sin (uniform θ0 θ1 (U (j, .beamTheta) ω))| ≤ d.n_sample := by
        have := Real.abs_sin_le_one (uniform θ0 θ1 (U (j, .beamTheta) ω))
        have := H.not_denser
        nlinarith
      rw [firstRow_zero, H.same_medium, H.same_sample, direction_refr hs hin hm]
      rfl
    | succ i ih =>
      intro hi
      refine (hl.2.1 i (by omega) j).trans ?_
      have := ih (by omega)
      unfold scatter at this
      simp only [Nat.add_sub_cancel] at this
      rw [this, R.min_angle, R.draw_theta, R.rand_phi]
      rfl
  refine ⟨hdir, ?_, ?_⟩
  · intro i
    induction i with
    | zero =>
      intro _
      dsimp only
      rw [(C33_move_steps _ _ _ 0 j).1]
      rfl
    | succ i ih =>
      intro hi
      have h := congrArg V3.z (C33_move_steps (fun i j => valV (firstRow (fun j => finV ((a nt ω).ux j * (a nt ω).spot_size)
        ((a nt ω).uy j * (a nt ω).spot_size) 0) i j)) (fun i j => val (fin (-Real.log (1 - (S nt ω).rand_step i j) / mu)))
        (scatter (nev + 1) (fun i j => valV (firstRow (fun j => direction (Root.refraction1 (fin (uniform θ0 θ1 (U (j, .beamTheta) ω)))
    (XF.abs (fin (a nt ω).n_medium)) (XF.abs (fin (a nt ω).n_sample))) (fin (Real.cos (uniform φ0 φ1 (U (j, .beamPhi) ω))))
    (fin (Real.sin (uniform φ0 φ1 (U (j, .beamPhi) ω))))) i j))
    (fun i j => Real.sin (linspace (S nt ω).min_angle Real.pi (n + 1) ((S nt ω).draw_theta i j)))
    (fun i j => Real.cos (linspace (S nt ω).min_angle Real.pi (n + 1) ((S nt ω).draw_theta i j)))
    (fun i j => Real.sin (2 * Real.pi * (S nt ω).rand_phi i j)) (fun i j => Real.cos (2 * Real.pi * (S nt ω).rand_phi i j))) i j).2
      simp only [V3.sub, V3.smul, hstep] at h
      rw [hdir i (by omega)] at h
      have ih' := ih (by omega)
      dsimp only [mkAngles] at ih' ⊢
      rw [colZ, ← ih']
      linarith
  · intro i
    simp only [absorb, hstep, R.mu_abs, one_mul]
    rfl

end Column

/-! ## C137 -/

/-- Photon `j` of a simulation of a smooth film, as `Verif.SpecLimit` describes it. -/
noncomputable def simPhoton {nt : ℕ} (nev : ℕ) (d : DetArgs) (t : Trajs nt) (j : Fin nt) : Photon :=
  smoothPhoton (nev := nev) d.optics.medium d.z_low d.thickness (fun e => (t.position e j).z) (fun e => (t.direction e j).z)
    (fun e => t.weight e j)

/-- the numbers of a photon are fractions, and it has at most one fate -/
structure PhotonOK (p : Photon) : Prop where
  enter : IsFraction p.enter
  outR : IsFraction p.outR
  outT : IsFraction p.outT
  trapped : IsFraction p.trapped
  escR : IsFraction p.escR
  escT : IsFraction p.escT
  sum : p.outR + p.outT + p.trapped ≤ p.enter

theorem smoothPhoton_ok {nev : ℕ} {o : FilmOptics} {bot top : ℝ} (hm : 0 < o.outside) (hs : 0 < o.surface)
    (hf : ∀ x, o.front = some x → 0 < x) (hb : ∀ x, o.back = some x → 0 < x)
    {z : Fin (nev + 2) → ℝ} {kz w : Fin (nev + 1) → ℝ} (hw : ∀ e, IsFraction (w e)) :
    PhotonOK (smoothPhoton o bot top z kz w) := by
  have hpass : ∀ {n1 n2 θ : ℝ} (pl : Option ℝ), 0 < n1 → 0 < n2 → (∀ x, pl = some x → 0 < x) → 0 ≤ θ → θ ≤ Real.pi / 2 →
      IsFraction (platePass n1 pl n2 θ) := by
    intro n1 n2 θ pl h1 h2 h3 h4 h5
    rw [← platePass_eq pl h1 h2 h3 h4 h5]
    exact Weights.passFrac_mem pl h1 h3 h4 h5
  have hval : ∀ (f : Option (Fin (nev + 1))), IsFraction (valueAt f w) := by
    intro f
    cases f with
    | none => exact ⟨le_rfl, zero_le_one⟩
    | some e => exact hw e
  have hθ : 0 ≤ Real.arcsin (o.surface / o.outside * Real.sin (Real.arccos |kz 0|)) ∧
      Real.arcsin (o.surface / o.outside * Real.sin (Real.arccos |kz 0|)) ≤ Real.pi / 2 := by
    refine ⟨Real.arcsin_nonneg.mpr (mul_nonneg (by positivity) ?_), Real.arcsin_le_pi_div_two _⟩
    exact Real.sin_nonneg_of_nonneg_of_le_pi (Real.arccos_nonneg _) (Real.arccos_le_pi _)
  have hent := hpass o.front hm hs hf hθ.1 hθ.2
  have hmul : ∀ {x y : ℝ}, IsFraction x → IsFraction y → IsFraction (x * y) := fun hx hy =>
    ⟨mul_nonneg hx.1 hy.1, mul_le_one₀ hx.2 hy.1 hy.2⟩
  refine ⟨hent, hmul hent (hval _), hmul hent (hval _), hmul hent (hval _),
    hpass _ hs hm hf (Weights.arccos_abs_mem _).1 (Weights.arccos_abs_mem _).2, hpass _ hs hm hb (Weights.arccos_abs_mem _).1 (Weights.arccos_abs_mem _).2, ?_⟩
  show platePass o.outside o.front o.surface (Real.arcsin (o.surface / o.outside * Real.sin (Real.arccos |kz 0|))) *
      valueAt (filmFate o.surface o.outside bot top z kz).reflEvent w +
    platePass o.outside o.front o.surface (Real.arcsin (o.surface / o.outside * Real.sin (Real.arccos |kz 0|))) *
      valueAt (filmFate o.surface o.outside bot top z kz).transEvent w +
    platePass o.outside o.front o.surface (Real.arcsin (o.surface / o.outside * Real.sin (Real.arccos |kz 0|))) *
      valueAt (filmFate o.surface o.outside bot top z kz).lastEvent w ≤
    platePass o.outside o.front o.surface (Real.arcsin (o.surface / o.outside * Real.sin (Real.arccos |kz 0|)))
  have h1 : ∀ e, platePass o.outside o.front o.surface (Real.arcsin (o.surface / o.outside * Real.sin (Real.arccos |kz 0|))) * w e ≤
      platePass o.outside o.front o.surface (Real.arcsin (o.surface / o.outside * Real.sin (Real.arccos |kz 0|))) := fun e =>
    mul_le_of_le_one_right hent.1 (hw e).2
  cases filmFate o.surface o.outside bot top z kz with
  | reflected e => simpa [valueAt, Fate.reflEvent, Fate.transEvent, Fate.lastEvent] using h1 e
  | transmitted e => simpa [valueAt, Fate.reflEvent, Fate.transEvent, Fate.lastEvent] using h1 e
  | trapped => simpa [valueAt, Fate.reflEvent, Fate.transEvent, Fate.lastEvent] using h1 _

/-- the run of a smooth film in terms of the photons -/
theorem run_photons {nt num : ℕ} {a : Args nt} {S : Sampling nt num} {d : DetArgs} (H : FilmRun a S d) (hflat : a.coarse_roughness = 0)
    (hfine : d.fine_roughness = 0) (hg : d.gonio = none) (hth : d.z_low < d.thickness) {nev : ℕ} {t : Trajs nt}
    (ht : simulate (nev + 1) a S = .ok t) :
    (∀ j, PhotonOK (simPhoton nev d t j)) ∧ ∃ rt, runFilm nev a S d = .ok rt ∧
      ((Photon.known (simPhoton nev d t) = 0 ∧ rt.R = nan ∧ rt.T = nan) ∨
       (Photon.known (simPhoton nev d t) ≠ 0 ∧ rt.R = fin (∑ j, Photon.refl (simPhoton nev d t) j) ∧
         rt.T = fin (∑ j, Photon.trans (simPhoton nev d t) j))) := by
  obtain ⟨t', ht', h1, h2, _, _, _, _, hr, hr1, hfl⟩ := simulate_facts H nev
  rw [ht] at ht'
  injection ht' with ht'
  subst ht'
  have hs : 0 < d.n_sample := lt_of_lt_of_le H.medium_pos H.not_denser
  have htir : d.optics.n_tir = d.n_sample := by
    show Weights.nTir _ _ _ _ = _
    unfold Weights.nTir
    rw [hfine]
    cases d.n_particle <;> cases d.n_matrix <;> simp
  obtain ⟨hro, hre, hin⟩ := hfl hflat
  have H1 := filmOK_of H h1 h2 hr1 (filter := id) (fun _ _ => Or.inl rfl)
  rw [hro] at H1
  refine ⟨fun j => smoothPhoton_ok H1.medium H1.tir H.front H.back
    fun e => h2 e j, ?_⟩
  have hrun : runFilm nev a S d = Weights.calcReflTransFilm (nev := nev) d.optics d.thickness d.z_low (fun i j => (t.position i j).z)
      (fun i j => (t.direction i j).z) (fun i j => t.weight i j) none none false id := by
    simp only [runFilm, ht, Bind.bind, Except.bind, Simulation.calcReflTransFilm, hg, hro, hre]
  have hsn : ∀ j, |d.optics.n_tir / d.optics.n_medium * Real.sin (Real.arccos |(t.direction 0 j).z|)| ≤ 1 := by
    intro j
    obtain ⟨θ, -, h0, hθ⟩ := hin j
    have hm := H.medium_pos
    rw [htir, Real.sin_arccos, sq_abs]
    show |d.n_sample / d.n_medium * _| ≤ 1
    rw [div_mul_eq_mul_div, hθ, mul_div_cancel_left₀ _ hm.ne', abs_abs]
    exact Real.abs_sin_le_one θ
  obtain ⟨rt, hrt, hh⟩ := C101_film_estimator (nev := nev) (fun (i : Fin (nev + 2)) j => (t.position i j).z) id H1 hs
    (by rw [htir]; exact H.not_denser) hth
    (fate := fun j => filmFate d.optics.n_tir d.optics.n_medium d.z_low d.thickness (fun e => (t.position e j).z) (fun e => (t.direction e j).z))
    (fun j => (filmFate_iff _ _ hth _ _ _).mp rfl)
    (θinc := fun j => Real.arcsin (d.optics.n_tir / d.optics.n_medium * Real.sin (Real.arccos |(t.direction 0 j).z|)))
    (fun j => ⟨Real.arcsin_nonneg.mpr (mul_nonneg (div_nonneg H1.tir.le H1.medium.le)
      (Real.sin_nonneg_of_nonneg_of_le_pi (Real.arccos_nonneg _) (Real.arccos_le_pi _))), Real.arcsin_le_pi_div_two _⟩)
    (fun j => by
      have := H1.medium.ne'
      unfold Snell
      rw [Real.sin_arcsin (abs_le.mp (hsn j)).1 (abs_le.mp (hsn j)).2]
      show _ = d.optics.n_tir * Real.sin (Real.arccos |(t.direction 0 j).z|)
      field_simp)
  rw [hrun]
  refine ⟨rt, hrt, ?_⟩
  rcases hh with hh | ⟨h1, -, -, h4, h5⟩
  · exact Or.inl hh
  · exact Or.inr ⟨h1, h4, h5⟩

/-- a photon of a simulation is a measurable function of its own draws -/
theorem photon_function {n : ℕ} {Ω : Type} {U : ℕ × Draw → Ω → ℝ} {θ0 θ1 φ0 φ1 : ℝ} {phase : Fin (n + 1) → ℝ} {m mu mua : ℝ}
    {a : (nt : ℕ) → Ω → Args (nt + 1)} {S : (nt : ℕ) → Ω → Sampling (nt + 1) (n + 1)} {d : DetArgs}
    (R : StreamRun U θ0 θ1 φ0 φ1 phase m mu mua a S) (H : ∀ nt ω, FilmRun (a nt ω) (S nt ω) d) (hth : d.z_low < d.thickness) (nev : ℕ) (ω0 : Ω) :
    ∃ G : (Draw → ℝ) → Photon, PhotonMeas G ∧ ∀ nt ω (t : Trajs (nt + 1)), simulate (nev + 1) (a nt ω) (S nt ω) = .ok t → ∀ j,
      simPhoton nev d t j = G (group U j ω) := by
  -- the photon as a function of its draws
  let G : (Draw → ℝ) → Photon := fun x => smoothPhoton (nev := nev) d.optics.medium d.z_low d.thickness
    (fun e => colZ θ0 θ1 φ0 φ1 phase m mu d.n_medium d.n_sample x e) (fun e => (colK θ0 θ1 φ0 φ1 phase m d.n_medium d.n_sample x e).z)
    (fun e => colW mu mua x e)
  have hcol : ∀ nt ω (t : Trajs (nt + 1)), simulate (nev + 1) (a nt ω) (S nt ω) = .ok t → ∀ j, simPhoton nev d t j = G (group U j ω) := by
    intro nt ω t ht j
    obtain ⟨h1, h2, h3⟩ := column R (H nt ω) ht j
    unfold simPhoton
    have e1 : (fun e : Fin (nev + 2) => (t.position e j).z) = fun e : Fin (nev + 2) =>
        colZ θ0 θ1 φ0 φ1 phase m mu d.n_medium d.n_sample (group U j ω) e := funext fun e => h2 e (by omega)
    have e2 : (fun e : Fin (nev + 1) => (t.direction e j).z) = fun e : Fin (nev + 1) =>
        (colK θ0 θ1 φ0 φ1 phase m d.n_medium d.n_sample (group U j ω) e).z := funext fun e => by rw [h1 e (by omega)]
    have e3 : (fun e : Fin (nev + 1) => t.weight e j) = fun e : Fin (nev + 1) => colW mu mua (group U j ω) e := funext fun e => h3 e
    rw [e1, e2, e3]
  have M : PhotonMeas G := smoothPhoton_meas hth (H 0 ω0).medium_pos (fun e => colZ_meas _ _ _ _ _ _ _ _ _ e)
    (fun e => (colK_meas _ _ _ _ _ _ _ _ e).2.2) (fun e => colW_meas _ _ e)
  exact ⟨G, M, hcol⟩

/-- C137 in general: if each photon is a fixed measurable function `G` of its own draws and `R`, `T` are the estimates from the first `nt + 1`
photons, then `R` and `T` converge -/
theorem consistency_core {Ω κ : Type} [MeasurableSpace Ω] {P : Measure Ω} [IsProbabilityMeasure P] {U : ℕ × κ → Ω → ℝ}
    (hU : UniformDraws P U) {G : (κ → ℝ) → Photon} (M : PhotonMeas G) (hok : ∀ ω, PhotonOK (G (group U 0 ω)))
    {p : Ω → Photon} (hp : ∀ ω, p ω = G (group U 0 ω)) (R T : ℕ → Ω → XF)
    (hrun : ∀ᵐ ω ∂P, ∀ nt, ((Photon.known (fun j : Fin (nt + 1) => G (group U j ω)) = 0 ∧ R nt ω = nan ∧ T nt ω = nan) ∨
       (Photon.known (fun j : Fin (nt + 1) => G (group U j ω)) ≠ 0 ∧
         R nt ω = fin (∑ j, Photon.refl (fun j : Fin (nt + 1) => G (group U j ω)) j) ∧
         T nt ω = fin (∑ j, Photon.trans (fun j : Fin (nt + 1) => G (group U j ω)) j)))) :
    (Photon.meanKnown P p ≠ 0 → ∀ᵐ ω ∂P, ∃ r t : ℕ → ℝ,
      (∀ᶠ nt in atTop, R nt ω = fin (r nt) ∧ T nt ω = fin (t nt)) ∧
      Tendsto r atTop (𝓝 (Photon.meanRefl P p)) ∧ Tendsto t atTop (𝓝 (Photon.meanTrans P p))) ∧
    (Photon.meanKnown P p = 0 → ∀ᵐ ω ∂P, ∀ nt, R nt ω = nan ∧ T nt ω = nan) := by
  have habs : ∀ {x : ℝ}, IsFraction x → |x| ≤ 1 := fun h => abs_le.mpr ⟨by linarith [h.1], h.2⟩
  have hmul : ∀ {x y : ℝ}, IsFraction x → IsFraction y → IsFraction (x * y) := fun hx hy =>
    ⟨mul_nonneg hx.1 hy.1, mul_le_one₀ hx.2 hy.1 hy.2⟩
  have hsub : ∀ {x : ℝ}, IsFraction x → IsFraction (1 - x) := fun hx => ⟨by linarith [hx.2], by linarith [hx.1]⟩
  have hite : ∀ {x : ℝ} (q : Prop), IsFraction x → IsFraction (if q then x else 0) := fun q hx => by
    split
    · exact hx
    · exact ⟨le_rfl, zero_le_one⟩
  have habsorbed : ∀ ω, IsFraction ((G (group U 0 ω)).enter - (G (group U 0 ω)).outR - (G (group U 0 ω)).outT - (G (group U 0 ω)).trapped) :=
    fun ω => ⟨by linarith [(hok ω).sum], by linarith [(hok ω).enter.2, (hok ω).outR.1, (hok ω).outT.1, (hok ω).trapped.1]⟩
  -- the nine functions
  have mseenR : Measurable fun x => if (G x).seenR then (G x).outR * (G x).escR else 0 := Measurable.ite M.seenR (M.outR.mul M.escR) measurable_const
  have mseenT : Measurable fun x => if (G x).seenT then (G x).outT * (G x).escT else 0 := Measurable.ite M.seenT (M.outT.mul M.escT) measurable_const
  have minc : Measurable fun x => if (G x).seenInc then 1 - (G x).enter else 0 := Measurable.ite M.seenInc (measurable_const.sub M.enter) measurable_const
  have mbR : Measurable fun x => (G x).outR * (1 - (G x).escR) := M.outR.mul (measurable_const.sub M.escR)
  have mbT : Measurable fun x => (G x).outT * (1 - (G x).escT) := M.outT.mul (measurable_const.sub M.escT)
  have mab : Measurable fun x => (G x).enter - (G x).outR - (G x).outT - (G x).trapped := ((M.enter.sub M.outR).sub M.outT).sub M.trapped
  have meR : Measurable fun x => (G x).outR * (G x).escR := M.outR.mul M.escR
  have meT : Measurable fun x => (G x).outT * (G x).escT := M.outT.mul M.escT
  have bR := fun ω => hmul (hok ω).outR (hok ω).escR
  have bT := fun ω => hmul (hok ω).outT (hok ω).escT
  have eEscR : Photon.meanEscR P p = ∫ ω, (G (group U 0 ω)).outR * (G (group U 0 ω)).escR ∂P := by simp only [Photon.meanEscR, hp]
  have eEscT : Photon.meanEscT P p = ∫ ω, (G (group U 0 ω)).outT * (G (group U 0 ω)).escT ∂P := by simp only [Photon.meanEscT, hp]
  have eSeenR : Photon.meanSeenR P p = ∫ ω, (if (G (group U 0 ω)).seenR then (G (group U 0 ω)).outR * (G (group U 0 ω)).escR else 0) ∂P := by
    simp only [Photon.meanSeenR, hp]
  have eSeenT : Photon.meanSeenT P p = ∫ ω, (if (G (group U 0 ω)).seenT then (G (group U 0 ω)).outT * (G (group U 0 ω)).escT else 0) ∂P := by
    simp only [Photon.meanSeenT, hp]
  have hR0 : 0 ≤ Photon.meanEscR P p := eEscR ▸ integral_nonneg fun ω => (bR ω).1
  have hT0 : 0 ≤ Photon.meanEscT P p := eEscT ▸ integral_nonneg fun ω => (bT ω).1
  have hsR0 : 0 ≤ Photon.meanSeenR P p := eSeenR ▸ integral_nonneg fun ω => (hite _ (bR ω)).1
  have hsT0 : 0 ≤ Photon.meanSeenT P p := eSeenT ▸ integral_nonneg fun ω => (hite _ (bT ω)).1
  have ha0 : 0 ≤ ∫ ω, ((p ω).enter - (p ω).outR - (p ω).outT - (p ω).trapped) ∂P := by
    simp only [hp]; exact integral_nonneg fun ω => (habsorbed ω).1
  have zR : Photon.meanEscR P p = 0 → ∀ᵐ ω ∂P, ∀ j, (G (group U j ω)).outR * (G (group U j ω)).escR = 0 := fun h =>
    group_zero hU meR (fun ω => habs (bR ω)) (fun ω => (bR ω).1) (eEscR ▸ h)
  have zT : Photon.meanEscT P p = 0 → ∀ᵐ ω ∂P, ∀ j, (G (group U j ω)).outT * (G (group U j ω)).escT = 0 := fun h =>
    group_zero hU meT (fun ω => habs (bT ω)) (fun ω => (bT ω).1) (eEscT ▸ h)
  constructor
  · intro hk
    have zR' : ∀ᵐ ω ∂P, Photon.meanEscR P p = 0 → ∀ j, (G (group U j ω)).outR * (G (group U j ω)).escR = 0 := by
      by_cases h : Photon.meanEscR P p = 0
      · filter_upwards [zR h] with ω hω _ using hω
      · exact Eventually.of_forall fun ω h' => absurd h' h
    have zT' : ∀ᵐ ω ∂P, Photon.meanEscT P p = 0 → ∀ j, (G (group U j ω)).outT * (G (group U j ω)).escT = 0 := by
      by_cases h : Photon.meanEscT P p = 0
      · filter_upwards [zT h] with ω hω _ using hω
      · exact Eventually.of_forall fun ω h' => absurd h' h
    filter_upwards [zR', zT', group_average hU mseenR (fun ω => habs (hite _ (bR ω))), group_average hU mseenT (fun ω => habs (hite _ (bT ω))),
      group_average hU minc (fun ω => habs (hite _ (hsub (hok ω).enter))),
      group_average hU mbR (fun ω => habs (hmul (hok ω).outR (hsub (hok ω).escR))),
      group_average hU mbT (fun ω => habs (hmul (hok ω).outT (hsub (hok ω).escT))),
      group_average hU M.trapped (fun ω => habs (hok ω).trapped), group_average hU mab (fun ω => habs (habsorbed ω)),
      group_average hU meR (fun ω => habs (bR ω)), group_average hU meT (fun ω => habs (bT ω)), hrun]
      with ω wR wT a1 a2 a3 a4 a5 a6 a7 a8 a9 hω
    simp only [← hp] at a1 a2 a3 a4 a5 a6 a7 a8 a9
    have A : Averages (fun j => G (group U j ω)) (Photon.meanSeenR P p) (Photon.meanSeenT P p) (Photon.meanInc P p) (Photon.meanBackR P p)
        (Photon.meanBackT P p) (Photon.meanTrapped P p) (∫ ω, ((p ω).enter - (p ω).outR - (p ω).outT - (p ω).trapped) ∂P)
        (Photon.meanEscR P p) (Photon.meanEscT P p) := ⟨a1, a2, a3, a4, a5, a6, a7, a8, a9⟩
    obtain ⟨l1, l2, l3⟩ := estimator_limit A hsR0 hsT0 hR0 hT0 hk wR wT
    refine ⟨_, _, ?_, l2, l3⟩
    filter_upwards [l1] with nt hnt
    rcases hω nt with ⟨h, -⟩ | ⟨-, h⟩
    · exact absurd h hnt
    · exact h
  · intro hk
    have hk' : ∫ ω, ((p ω).enter - (p ω).outR - (p ω).outT - (p ω).trapped) ∂P + Photon.meanEscR P p + Photon.meanEscT P p = 0 := hk
    have h1 : Photon.meanEscR P p = 0 := by linarith
    have h2 : Photon.meanEscT P p = 0 := by linarith
    have h3 : ∫ ω, ((G (group U 0 ω)).enter - (G (group U 0 ω)).outR - (G (group U 0 ω)).outT - (G (group U 0 ω)).trapped) ∂P = 0 := by
      simp only [← hp]; linarith
    filter_upwards [zR h1, zT h2, group_zero hU mab (fun ω => habs (habsorbed ω)) (fun ω => (habsorbed ω).1) h3, hrun] with ω w1 w2 w3 hω nt
    rcases hω nt with ⟨-, h⟩ | ⟨h, -⟩
    · exact h
    · refine absurd ?_ h
      unfold Photon.known Photon.absorbed Photon.escapedR Photon.escapedT
      simp only [w1, w2, w3, Finset.sum_const_zero, add_zero]

/-- C137.  **More trajectories: reflectance and transmittance converge.**  A smooth film is simulated with more and more trajectories, all fed from
one stream of independent uniform numbers (any ranges of the angles of incidence, any phase function, absorption, plates and detection angle).
`p ω` is the photon of the run with a single trajectory.  If the expected light of known final state is not zero, then with
probability one reflectance and transmittance are numbers from some number of trajectories on and converge to the formula of
the estimator with expectations over this one photon in place of averages over the bundle; otherwise they are NaN with probability one, whatever
the number of trajectories. -/
theorem C137_converges {n : ℕ} {Ω : Type} [MeasurableSpace Ω] (P : Measure Ω) [IsProbabilityMeasure P] (U : ℕ × Draw → Ω → ℝ)
    (hU : UniformDraws P U) {θ0 θ1 φ0 φ1 : ℝ} {phase : Fin (n + 1) → ℝ} {m mu mua : ℝ} (a : (nt : ℕ) → Ω → Args (nt + 1))
    (S : (nt : ℕ) → Ω → Sampling (nt + 1) (n + 1)) (d : DetArgs) (R : StreamRun U θ0 θ1 φ0 φ1 phase m mu mua a S)
    (H : ∀ nt ω, FilmRun (a nt ω) (S nt ω) d) (hfine : d.fine_roughness = 0) (hg : d.gonio = none) (hth : d.z_low < d.thickness) (nev : ℕ)
    (rt : (nt : ℕ) → Ω → Weights.RT (nt + 1)) (hrt : ∀ nt ω, runFilm nev (a nt ω) (S nt ω) d = .ok (rt nt ω))
    (t1 : Ω → Trajs 1) (ht1 : ∀ ω, simulate (nev + 1) (a 0 ω) (S 0 ω) = .ok (t1 ω)) :
    let p : Ω → Photon := fun ω => simPhoton nev d (t1 ω) 0
    (Photon.meanKnown P p ≠ 0 → ∀ᵐ ω ∂P, ∃ r t : ℕ → ℝ,
      (∀ᶠ nt in atTop, (rt nt ω).R = fin (r nt) ∧ (rt nt ω).T = fin (t nt)) ∧
      Tendsto r atTop (𝓝 (Photon.meanRefl P p)) ∧ Tendsto t atTop (𝓝 (Photon.meanTrans P p))) ∧
    (Photon.meanKnown P p = 0 → ∀ᵐ ω ∂P, ∀ nt, (rt nt ω).R = nan ∧ (rt nt ω).T = nan) := by
  intro p
  obtain ⟨ω0⟩ : Nonempty Ω := by
    by_contra h
    rw [not_nonempty_iff] at h
    have := (inferInstance : IsProbabilityMeasure P).measure_univ
    rw [Set.eq_empty_of_isEmpty (Set.univ : Set Ω), measure_empty] at this
    exact zero_ne_one this
  obtain ⟨G, M, hcol⟩ := photon_function R H hth nev ω0
  choose t ht using fun nt ω => simulate_facts (H nt ω) nev
  have hsim : ∀ nt ω, simulate (nev + 1) (a nt ω) (S nt ω) = .ok (t nt ω) := fun nt ω => (ht nt ω).1
  have hp : ∀ ω, p ω = G (group U 0 ω) := fun ω => hcol 0 ω (t1 ω) (ht1 ω) 0
  have hrun : ∀ nt ω, (∀ j : Fin (nt + 1), PhotonOK (G (group U j ω))) ∧
      ((Photon.known (fun j : Fin (nt + 1) => G (group U j ω)) = 0 ∧ (rt nt ω).R = nan ∧ (rt nt ω).T = nan) ∨
       (Photon.known (fun j : Fin (nt + 1) => G (group U j ω)) ≠ 0 ∧
         (rt nt ω).R = fin (∑ j, Photon.refl (fun j : Fin (nt + 1) => G (group U j ω)) j) ∧
         (rt nt ω).T = fin (∑ j, Photon.trans (fun j : Fin (nt + 1) => G (group U j ω)) j))) := by
    intro nt ω
    obtain ⟨h1, rt', hrt', h2⟩ := run_photons (H nt ω) (R.smooth nt ω) hfine hg hth (hsim nt ω)
    rw [hrt nt ω] at hrt'
    injection hrt' with hrt'
    subst hrt'
    have e : simPhoton nev d (t nt ω) = fun j : Fin (nt + 1) => G (group U j ω) := funext (hcol nt ω _ (hsim nt ω))
    rw [e] at h1 h2
    exact ⟨h1, h2⟩
  exact consistency_core hU M (fun ω => (hrun 0 ω).1 0) hp (fun nt ω => (rt nt ω).R) (fun nt ω => (rt nt ω).T)
    (Eventually.of_forall fun ω nt => (hrun nt ω).2)

/-- C137: the limits are fractions with sum at most 1. -/
theorem C137_limit_fractions {n : ℕ} {Ω : Type} [MeasurableSpace Ω] (P : Measure Ω) [IsProbabilityMeasure P] (U : ℕ × Draw → Ω → ℝ)
    (hU : UniformDraws P U) {θ0 θ1 φ0 φ1 : ℝ} {phase : Fin (n + 1) → ℝ} {m mu mua : ℝ} (a : (nt : ℕ) → Ω → Args (nt + 1))
    (S : (nt : ℕ) → Ω → Sampling (nt + 1) (n + 1)) (d : DetArgs) (R : StreamRun U θ0 θ1 φ0 φ1 phase m mu mua a S)
    (H : ∀ nt ω, FilmRun (a nt ω) (S nt ω) d) (hfine : d.fine_roughness = 0) (hg : d.gonio = none) (hth : d.z_low < d.thickness) (nev : ℕ)
    (t1 : Ω → Trajs 1) (ht1 : ∀ ω, simulate (nev + 1) (a 0 ω) (S 0 ω) = .ok (t1 ω))
    (hk : Photon.meanKnown P (fun ω => simPhoton nev d (t1 ω) 0) ≠ 0) :
    let p : Ω → Photon := fun ω => simPhoton nev d (t1 ω) 0
    0 ≤ Photon.meanRefl P p ∧ 0 ≤ Photon.meanTrans P p ∧ Photon.meanRefl P p + Photon.meanTrans P p ≤ 1 ∧
    (mua = 0 → d.detection_angle = Real.pi / 2 → Photon.meanRefl P p + Photon.meanTrans P p = 1) := by
  intro p
  choose rt hrt hfr using fun nt ω => C95_film_run_fractions (H nt ω) nev
  obtain ⟨ω, r, t, hev, hr, ht⟩ := ((C137_converges P U hU a S d R H hfine hg hth nev rt hrt t1 ht1).1 hk).exists
  have hb : ∀ᶠ nt in atTop, 0 ≤ r nt ∧ 0 ≤ t nt ∧ r nt + t nt ≤ 1 := by
    filter_upwards [hev] with nt hnt
    rcases hfr nt ω with ⟨h, -⟩ | ⟨x, y, hx, hy, h1, h2, h3⟩
    · rw [hnt.1] at h; cases h
    · rw [hnt.1, fin_inj] at hx
      rw [hnt.2, fin_inj] at hy
      rw [hx, hy]
      exact ⟨h1, h2, h3⟩
  refine ⟨ge_of_tendsto hr (hb.mono fun _ h => h.1), ge_of_tendsto ht (hb.mono fun _ h => h.2.1),
    le_of_tendsto (hr.add ht) (hb.mono fun _ h => h.2.2), fun h0 hdet => ?_⟩
  refine tendsto_nhds_unique (hr.add ht) (tendsto_const_nhds.congr' ?_)
  filter_upwards [hev] with nt hnt
  obtain ⟨rt', h1, h2⟩ := C95_film_run_lossless (H nt ω) nev (R.smooth nt ω) ((R.mu_abs nt ω).trans h0) hg hdet (Or.inl hfine)
  rw [hrt nt ω] at h1
  injection h1 with h1
  subst h1
  rcases h2 with ⟨h, -⟩ | ⟨x, y, hx, hy, h3⟩
  · rw [hnt.1] at h; cases h
  · rw [hnt.1, fin_inj] at hx
    rw [hnt.2, fin_inj] at hy
    rw [hx, hy]
    exact h3.2.2.symm

/-- C137: the condition is met by every absorbing film lit at angles of incidence below 90 degrees, directly or through a plate not less
dense than the medium. -/
theorem C137_absorbing_known {n : ℕ} {Ω : Type} [MeasurableSpace Ω] (P : Measure Ω) [IsProbabilityMeasure P] (U : ℕ × Draw → Ω → ℝ)
    (hU : UniformDraws P U) {θ0 θ1 φ0 φ1 : ℝ} {phase : Fin (n + 1) → ℝ} {m mu mua : ℝ} (a : (nt : ℕ) → Ω → Args (nt + 1))
    (S : (nt : ℕ) → Ω → Sampling (nt + 1) (n + 1)) (d : DetArgs) (R : StreamRun U θ0 θ1 φ0 φ1 phase m mu mua a S)
    (H : ∀ nt ω, FilmRun (a nt ω) (S nt ω) d) (hfine : d.fine_roughness = 0) (hg : d.gonio = none) (hth : d.z_low < d.thickness) (nev : ℕ)
    (t1 : Ω → Trajs 1) (ht1 : ∀ ω, simulate (nev + 1) (a 0 ω) (S 0 ω) = .ok (t1 ω))
    (hmua : 0 < mua) (hθ0 : -(Real.pi / 2) < θ0) (hθ1 : θ1 < Real.pi / 2) (hfront : ∀ x, d.n_front = some x → d.n_medium ≤ x) :
    0 < Photon.meanKnown P (fun ω => simPhoton nev d (t1 ω) 0) := by
  obtain ⟨ω0⟩ : Nonempty Ω := by
    by_contra h
    rw [not_nonempty_iff] at h
    have := (inferInstance : IsProbabilityMeasure P).measure_univ
    rw [Set.eq_empty_of_isEmpty (Set.univ : Set Ω), measure_empty] at this
    exact zero_ne_one this
  obtain ⟨G, M, hcol⟩ := photon_function R H hth nev ω0
  have hp : ∀ ω, simPhoton nev d (t1 ω) 0 = G (group U 0 ω) := fun ω => hcol 0 ω (t1 ω) (ht1 ω) 0
  have hok : ∀ ω, PhotonOK (simPhoton nev d (t1 ω) 0) := fun ω => (run_photons (H 0 ω) (R.smooth 0 ω) hfine hg hth (ht1 ω)).1 0
  have hfrac : ∀ ω, IsFraction ((simPhoton nev d (t1 ω) 0).enter - (simPhoton nev d (t1 ω) 0).outR - (simPhoton nev d (t1 ω) 0).outT -
      (simPhoton nev d (t1 ω) 0).trapped) :=
    fun ω => ⟨by linarith [(hok ω).sum], by linarith [(hok ω).enter.2, (hok ω).outR.1, (hok ω).outT.1, (hok ω).trapped.1]⟩
  have hint : Integrable (fun ω => (simPhoton nev d (t1 ω) 0).enter - (simPhoton nev d (t1 ω) 0).outR - (simPhoton nev d (t1 ω) 0).outT -
      (simPhoton nev d (t1 ω) 0).trapped) P := by
    refine Integrable.of_bound (Measurable.aestronglyMeasurable ?_) 1 (Eventually.of_forall fun ω =>
      abs_le.mpr ⟨by linarith [(hfrac ω).1], (hfrac ω).2⟩)
    simp only [hp]
    exact (((M.enter.sub M.outR).sub M.outT).sub M.trapped).comp (group_meas hU 0)
  have hEsc : 0 ≤ Photon.meanEscR P (fun ω => simPhoton nev d (t1 ω) 0) := integral_nonneg fun ω => mul_nonneg (hok ω).outR.1 (hok ω).escR.1
  have hEscT : 0 ≤ Photon.meanEscT P (fun ω => simPhoton nev d (t1 ω) 0) := integral_nonneg fun ω => mul_nonneg (hok ω).outT.1 (hok ω).escT.1
  suffices h : 0 < ∫ ω, ((simPhoton nev d (t1 ω) 0).enter - (simPhoton nev d (t1 ω) 0).outR - (simPhoton nev d (t1 ω) 0).outT -
      (simPhoton nev d (t1 ω) 0).trapped) ∂P by
    unfold Photon.meanKnown
    linarith
  refine lt_of_le_of_ne (integral_nonneg fun ω => (hfrac ω).1) fun h0 => ?_
  have hz := (integral_eq_zero_iff_of_nonneg (fun ω => (hfrac ω).1) hint).mp h0.symm
  have hu : ∀ᵐ ω ∂P, U (0, .step 0) ω ≠ 0 := by
    have h1 : ∀ᵐ u ∂unif, u ≠ 0 := by
      refine ae_restrict_of_ae ?_
      rw [ae_iff]; simp
    rw [← hU.law (0, .step 0)] at h1
    exact ae_of_ae_map (hU.meas _).aemeasurable h1
  obtain ⟨ω, hω, hωu⟩ := (hz.and hu).exists
  have hω' : (simPhoton nev d (t1 ω) 0).enter - (simPhoton nev d (t1 ω) 0).outR - (simPhoton nev d (t1 ω) 0).outT -
      (simPhoton nev d (t1 ω) 0).trapped = 0 := hω
  obtain ⟨t', ht', _, h2, _, _, _, _, _, _, hfl⟩ := simulate_facts (H 0 ω) nev
  rw [ht1 ω] at ht'
  injection ht' with ht'
  subst ht'
  have hpos := (H 0 ω).medium_pos
  have hs : 0 < d.n_sample := hpos.trans_le (H 0 ω).not_denser
  have htir : d.optics.n_tir = d.n_sample := by
    show Weights.nTir _ _ _ _ = _
    unfold Weights.nTir
    rw [hfine]
    cases d.n_particle <;> cases d.n_matrix <;> simp
  -- every weight is below 1
  have hw : ∀ e, (t1 ω).weight e 0 < 1 := by
    intro e
    rw [(column R (H 0 ω) (ht1 ω) 0).2.2 e, colW, Real.exp_lt_one_iff]
    have hmu : 0 < mu := (R.mu_scat 0 ω) ▸ (H 0 ω).mu_scat
    have hS : ∀ i, 0 ≤ colS mu (group U 0 ω) i := by
      intro i
      have this : 0 ≤ U ((0 : ℕ), .step i) ω ∧ U ((0 : ℕ), .step i) ω < 1 := by
        have h := (H 0 ω).rand_step i 0
        rw [R.rand_step] at h
        exact h
      refine div_nonneg (neg_nonneg.mpr (Real.log_nonpos ?_ ?_)) hmu.le
      · show 0 ≤ 1 - U ((0 : ℕ), .step i) ω; exact (by linarith [this.2])
      · show 1 - U ((0 : ℕ), .step i) ω ≤ 1; exact (by linarith [this.1])
    have hS0 : 0 < colS mu (group U 0 ω) 0 := by
      have this : 0 ≤ U ((0 : ℕ), .step 0) ω ∧ U ((0 : ℕ), .step 0) ω < 1 := by
        have h := (H 0 ω).rand_step 0 0
        rw [R.rand_step] at h
        exact h
      have h0 : 0 < U ((0 : ℕ), .step 0) ω := lt_of_le_of_ne this.1 (Ne.symm hωu)
      refine div_pos (neg_pos.mpr (Real.log_neg ?_ ?_)) hmu
      · show 0 < 1 - U ((0 : ℕ), .step 0) ω; exact (by linarith [this.2])
      · show 1 - U ((0 : ℕ), .step 0) ω < 1; exact (by linarith)
    have hc : 0 < cumsum (fun e => colS mu (group U 0 ω) e) e := by
      induction e with
      | zero => exact hS0
      | succ e ih => exact add_pos_of_pos_of_nonneg ih (hS _)
    have := mul_pos hmua hc
    exact neg_neg_of_pos this
  -- some light enters
  have hent : 0 < (simPhoton nev d (t1 ω) 0).enter := by
    show 0 < platePass d.n_medium d.n_front d.optics.n_tir
      (Real.arcsin (d.optics.n_tir / d.n_medium * Real.sin (Real.arccos |((t1 ω).direction 0 0).z|)))
    obtain ⟨θ, hθ, -, hsn⟩ := (hfl (R.smooth 0 ω)).2.2 0
    have hθr : θ0 ≤ θ ∧ θ ≤ θ1 := by
      have := hθ
      rw [R.theta_data, R.theta_min, R.theta_max] at this
      exact this
    have hlt : |Real.sin θ| < 1 := by
      rw [abs_lt]
      constructor
      · rw [← Real.sin_pi_div_two, ← Real.sin_neg]
        exact Real.sin_lt_sin_of_lt_of_le_pi_div_two le_rfl (by linarith [hθr.2]) (by linarith [hθr.1])
      · rw [← Real.sin_pi_div_two]
        exact Real.sin_lt_sin_of_lt_of_le_pi_div_two (by linarith [hθr.1]) le_rfl (by linarith [hθr.2])
    have e : d.optics.n_tir / d.n_medium * Real.sin (Real.arccos |((t1 ω).direction 0 0).z|) = |Real.sin θ| := by
      rw [htir, Real.sin_arccos, sq_abs, div_mul_eq_mul_div, hsn, mul_div_cancel_left₀ _ hpos.ne']
    rw [e]
    have h0 : 0 ≤ Real.arcsin |Real.sin θ| := Real.arcsin_nonneg.mpr (abs_nonneg _)
    have h1 : Real.arcsin |Real.sin θ| < Real.pi / 2 := by rw [Real.arcsin_lt_pi_div_two]; exact hlt
    have hsin : Real.sin (Real.arcsin |Real.sin θ|) = |Real.sin θ| := Real.sin_arcsin (by linarith [abs_nonneg (Real.sin θ)]) hlt.le
    rw [← platePass_eq d.n_front hpos (htir ▸ hs) (H 0 ω).front h0 h1.le]
    refine lt_of_le_of_ne (Weights.passFrac_mem d.n_front hpos (H 0 ω).front h0 h1.le).1 fun hh => ?_
    have := (C08_pass_frac_zero_iff (na := d.optics.n_tir) d.n_front hpos (htir ▸ hs) (H 0 ω).front h0 h1.le).mp hh.symm
    rw [hsin] at this
    have hle : d.n_medium ≤ d.n_front.getD d.n_medium := by
      cases hf : d.n_front with
      | none => exact le_rfl
      | some x => exact hfront x hf
    have hnd := (H 0 ω).not_denser
    rcases this with h | h | h
    · nlinarith
    · rw [htir] at h; nlinarith
    · linarith
  have key : ∀ e, (simPhoton nev d (t1 ω) 0).enter * (t1 ω).weight e 0 < (simPhoton nev d (t1 ω) 0).enter := fun e =>
    mul_lt_of_lt_one_right hent (hw e)
  have eR : (simPhoton nev d (t1 ω) 0).outR = (simPhoton nev d (t1 ω) 0).enter * valueAt (filmFate d.optics.n_tir d.n_medium d.z_low d.thickness
    (fun e : Fin (nev + 2) => ((t1 ω).position e 0).z) (fun e : Fin (nev + 1) => ((t1 ω).direction e 0).z)).reflEvent (fun e => (t1 ω).weight e 0) := rfl
  have eT : (simPhoton nev d (t1 ω) 0).outT = (simPhoton nev d (t1 ω) 0).enter * valueAt (filmFate d.optics.n_tir d.n_medium d.z_low d.thickness
    (fun e : Fin (nev + 2) => ((t1 ω).position e 0).z) (fun e : Fin (nev + 1) => ((t1 ω).direction e 0).z)).transEvent (fun e => (t1 ω).weight e 0) := rfl
  have eS : (simPhoton nev d (t1 ω) 0).trapped = (simPhoton nev d (t1 ω) 0).enter * valueAt (filmFate d.optics.n_tir d.n_medium d.z_low d.thickness
    (fun e : Fin (nev + 2) => ((t1 ω).position e 0).z) (fun e : Fin (nev + 1) => ((t1 ω).direction e 0).z)).lastEvent (fun e => (t1 ω).weight e 0) := rfl
  rw [eR, eT, eS] at hω'
  cases hf : filmFate d.optics.n_tir d.n_medium d.z_low d.thickness
    (fun e : Fin (nev + 2) => ((t1 ω).position e 0).z) (fun e : Fin (nev + 1) => ((t1 ω).direction e 0).z) with
  | reflected e =>
    rw [hf] at hω'; simp only [valueAt, Fate.reflEvent, Fate.transEvent, Fate.lastEvent, mul_zero, sub_zero] at hω'
    linarith [key e]
  | transmitted e =>
    rw [hf] at hω'; simp only [valueAt, Fate.reflEvent, Fate.transEvent, Fate.lastEvent, mul_zero, sub_zero] at hω'
    linarith [key e]
  | trapped =>
    rw [hf] at hω'; simp only [valueAt, Fate.reflEvent, Fate.transEvent, Fate.lastEvent, mul_zero, sub_zero] at hω'
    linarith [key (Fin.last nev : Fin (nev + 1))]

/-- Non-vacuity of C137: the film of C95 with absorption, lit at angles of incidence of up to 45 degrees, isotropic scattering. -/
example : ∃ (Ω : Type) (_ : MeasurableSpace Ω) (P : Measure Ω) (_ : IsProbabilityMeasure P) (U : ℕ × Draw → Ω → ℝ)
    (a : (nt : ℕ) → Ω → Args (nt + 1)) (S : (nt : ℕ) → Ω → Sampling (nt + 1) 3) (rt : (nt : ℕ) → Ω → Weights.RT (nt + 1)) (t1 : Ω → Trajs 1),
    UniformDraws P U ∧ StreamRun U 0 (Real.pi / 4) 0 (2 * Real.pi) (fun _ : Fin 3 => 1) 0 1 1 a S ∧
    (∀ nt ω, FilmRun (a nt ω) (S nt ω) (demoDet none)) ∧ (demoDet none).fine_roughness = 0 ∧ (demoDet none).gonio = none ∧
    (demoDet none).z_low < (demoDet none).thickness ∧ (∀ nt ω, runFilm 5 (a nt ω) (S nt ω) (demoDet none) = .ok (rt nt ω)) ∧
    (∀ ω, simulate (5 + 1) (a 0 ω) (S 0 ω) = .ok (t1 ω)) ∧ Photon.meanKnown P (fun ω => simPhoton 5 (demoDet none) (t1 ω) 0) ≠ 0 := by
  obtain ⟨Ω, mΩ, P, U, hP, hU, hr⟩ := uniformDraws_in_range (ℕ × Draw)
  let a : (nt : ℕ) → Ω → Args (nt + 1) := fun nt ω =>
    ⟨1, 3 / 2, .film, 0, Real.pi / 4, none, 0, 2 * Real.pi, none, 1, none, 0, fun _ => 0, fun _ => 0, fun j => U (j, .beamTheta) ω,
      fun j => U (j, .beamPhi) ω, fun _ => 0, fun _ => 0, fun _ => 0⟩
  let S : (nt : ℕ) → Ω → Sampling (nt + 1) 3 := fun nt ω =>
    { p := fun _ => 1, min_angle := 0, draw_theta := fun i j => choiceIndex (probTheta (fun _ : Fin 3 => 1) 0) (U (j, .angle i) ω),
      rand_phi := fun i j => U (j, .azimuth i) ω, mu_scat := 1, mu_scat_mie := none,
      fine_roughness := 0, rand_step := fun i j => U (j, .step i) ω, rand_mie := fun _ => 1 / 2, mu_abs := 1 }
  have R : StreamRun U 0 (Real.pi / 4) 0 (2 * Real.pi) (fun _ : Fin 3 => 1) 0 1 1 a S := by
    constructor <;> intros <;> rfl
  have D := demo_filmRun 1 zero_le_one none
  have H : ∀ nt ω, FilmRun (a nt ω) (S nt ω) (demoDet none) := fun nt ω =>
    { nt_pos := Nat.succ_pos _, film := rfl, no_diameter := rfl, theta_len := fun l hl => (nomatch hl), phi_len := fun l hl => (nomatch hl),
      theta_range := by show (0 : ℝ) ≤ Real.pi / 4; positivity
      phi_range := by show (0 : ℝ) ≤ 2 * Real.pi; positivity
      same_medium := rfl, same_sample := rfl, medium_pos := D.medium_pos, not_denser := D.not_denser, front := D.front, back := D.back,
      particle := D.particle, matrix := D.matrix, fine := D.fine, draw_t := fun j => hr _ ω, draw_p := fun j => hr _ ω,
      phase := D.phase, min_angle := D.min_angle, phase_pos := D.phase_pos, rand_phi := fun i j => hr _ ω, mu_scat := D.mu_scat,
      mu_mie := D.mu_mie, fine_step := D.fine_step, rand_step := fun i j => hr _ ω, rand_mie := D.rand_mie, mu_abs := D.mu_abs }
  choose rt hrt _ using fun nt ω => C95_film_run_fractions (H nt ω) 5
  choose t1 ht1 using fun ω => simulate_facts (H 0 ω) 5
  refine ⟨Ω, mΩ, P, hP, U, a, S, rt, t1, hU, R, H, rfl, rfl, by norm_num [demoDet], hrt, fun ω => (ht1 ω).1, ?_⟩
  refine (C137_absorbing_known P U hU a S (demoDet none) R H rfl rfl (by norm_num [demoDet]) 5 t1 (fun ω => (ht1 ω).1) one_pos
    (by linarith [Real.pi_pos]) (by linarith [Real.pi_pos]) (fun x hx => (nomatch hx))).ne'

end Verif.Props
