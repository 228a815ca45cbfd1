import Mathlib.Probability.Moments.SubGaussian
import Verif.Props.Consistency

/-!
# C143: statistical error of reflectance and transmittance at a finite number of trajectories
-/

namespace Verif.Props

open Classical MeasureTheory ProbabilityTheory Filter Topology Verif.Spec Verif.Traj Verif.Simulation Verif.Init Verif.Exits Verif.Geometry XF

section Law
variable {Ω κ : Type} [MeasurableSpace Ω] {P : Measure Ω} [IsProbabilityMeasure P]

theorem group_mean {U : ℕ × κ → Ω → ℝ} (hU : UniformDraws P U) {F : (κ → ℝ) → ℝ} (hF : Measurable F) (j : ℕ) :
    ∫ ω, F (group U j ω) ∂P = ∫ ω, F (group U 0 ω) ∂P := by
  have e : ∀ j, ∫ ω, F (group U j ω) ∂P = ∫ x, F x ∂(Measure.infinitePi fun _ : κ => unif) := by
    intro j
    rw [← group_law hU j, integral_map (group_meas hU j).aemeasurable hF.aestronglyMeasurable]
  rw [e, e]

/-- one side of Hoeffding's inequality for a function of the groups of draws -/
theorem hoeffding_side {U : ℕ × κ → Ω → ℝ} (hU : UniformDraws P U) {F : (κ → ℝ) → ℝ} (hF : Measurable F) {lo : ℝ}
    (hb : ∀ j ω, F (group U j ω) ∈ Set.Icc lo (lo + 1)) (nt : ℕ) {ε : ℝ} (hε : 0 ≤ ε) :
    P.real {ω | ε ≤ (∑ j : Fin (nt + 1), F (group U j ω)) / ((nt + 1 : ℕ) : ℝ) - ∫ ω, F (group U 0 ω) ∂P} ≤
      Real.exp (-2 * ((nt + 1 : ℕ) : ℝ) * ε ^ 2) := by
  have hn : (0 : ℝ) < ((nt + 1 : ℕ) : ℝ) := by positivity
  have hm : ∀ j, Measurable fun ω => F (group U j ω) := fun j => hF.comp (group_meas hU j)
  have hind : iIndepFun (fun j ω => F (group U j ω) - ∫ ω, F (group U 0 ω) ∂P) P :=
    (group_indep hU).comp (fun _ x => F x - ∫ ω, F (group U 0 ω) ∂P) fun _ => hF.sub_const _
  have hsub : ∀ j < nt + 1, HasSubgaussianMGF (fun ω => F (group U j ω) - ∫ ω, F (group U 0 ω) ∂P) ((‖(lo + 1) - lo‖₊ / 2) ^ 2) P := by
    intro j _
    have := hasSubgaussianMGF_of_mem_Icc (hm j).aemeasurable (Eventually.of_forall (hb j)) (μ := P)
    rwa [group_mean hU hF j] at this
  have h := HasSubgaussianMGF.measure_sum_range_ge_le_of_iIndepFun hind hsub (ε := ((nt + 1 : ℕ) : ℝ) * ε) (by positivity)
  have hset : {ω | ε ≤ (∑ j : Fin (nt + 1), F (group U j ω)) / ((nt + 1 : ℕ) : ℝ) - ∫ ω, F (group U 0 ω) ∂P} =
      {ω | ((nt + 1 : ℕ) : ℝ) * ε ≤ ∑ i ∈ Finset.range (nt + 1), (F (group U i ω) - ∫ ω, F (group U 0 ω) ∂P)} := by
    ext ω
    simp only [Set.mem_ofPred_eq, Finset.sum_sub_distrib, Finset.sum_const, Finset.card_range, nsmul_eq_mul]
    rw [Finset.sum_range fun i => F (group U i ω), le_sub_iff_add_le, le_sub_iff_add_le, le_div_iff₀ hn]
    constructor <;> intro h <;> linarith
  rw [hset]
  refine h.trans_eq ?_
  congr 1
  have e : ((‖(lo + 1) - lo‖₊ / 2) ^ 2 : NNReal) = (1 / 4 : ℝ) := by
    push_cast
    rw [add_sub_cancel_left]
    norm_num
  rw [e]
  field_simp
  ring

/-- Hoeffding's inequality for averages of a fraction that is a function of the groups of draws -/
theorem hoeffding_group {U : ℕ × κ → Ω → ℝ} (hU : UniformDraws P U) {F : (κ → ℝ) → ℝ} (hF : Measurable F)
    (hb : ∀ j ω, IsFraction (F (group U j ω))) (nt : ℕ) {ε : ℝ} (hε : 0 ≤ ε) :
    P.real {ω | ε ≤ |(∑ j : Fin (nt + 1), F (group U j ω)) / ((nt + 1 : ℕ) : ℝ) - ∫ ω, F (group U 0 ω) ∂P|} ≤
      2 * Real.exp (-2 * ((nt + 1 : ℕ) : ℝ) * ε ^ 2) := by
  have h1 := hoeffding_side hU hF (lo := 0) (fun j ω => ⟨(hb j ω).1, by linarith [(hb j ω).2]⟩) nt hε
  have h2 := hoeffding_side hU (F := fun x => - F x) hF.neg (lo := -1) (fun j ω => ⟨by linarith [(hb j ω).2], by linarith [(hb j ω).1]⟩) nt hε
  rw [two_mul]
  refine le_trans ?_ (add_le_add h1 h2)
  refine le_trans (measureReal_mono ?_) (measureReal_union_le _ _)
  intro ω hω
  have hω' : ε ≤ |(∑ j : Fin (nt + 1), F (group U j ω)) / ((nt + 1 : ℕ) : ℝ) - ∫ ω, F (group U 0 ω) ∂P| := hω
  rcases le_abs.mp hω' with h | h
  · exact Or.inl h
  · refine Or.inr ?_
    show ε ≤ (∑ j : Fin (nt + 1), - F (group U j ω)) / ((nt + 1 : ℕ) : ℝ) - ∫ ω, - F (group U 0 ω) ∂P
    rw [Finset.sum_neg_distrib, integral_neg, neg_div]
    linarith

/-- union bound -/
theorem hoeffding_all {U : ℕ × κ → Ω → ℝ} (hU : UniformDraws P U) {k : ℕ} {F : Fin k → (κ → ℝ) → ℝ} (hF : ∀ i, Measurable (F i))
    (hb : ∀ i j ω, IsFraction (F i (group U j ω))) (nt : ℕ) {ε : ℝ} (hε : 0 ≤ ε) :
    P.real {ω | ¬ ∀ i, |(∑ j : Fin (nt + 1), F i (group U j ω)) / ((nt + 1 : ℕ) : ℝ) - ∫ ω, F i (group U 0 ω) ∂P| < ε} ≤
      2 * k * Real.exp (-2 * ((nt + 1 : ℕ) : ℝ) * ε ^ 2) := by
  have e : {ω | ¬ ∀ i, |(∑ j : Fin (nt + 1), F i (group U j ω)) / ((nt + 1 : ℕ) : ℝ) - ∫ ω, F i (group U 0 ω) ∂P| < ε} =
      ⋃ i ∈ (Finset.univ : Finset (Fin k)), {ω | ε ≤ |(∑ j : Fin (nt + 1), F i (group U j ω)) / ((nt + 1 : ℕ) : ℝ) - ∫ ω, F i (group U 0 ω) ∂P|} := by
    ext ω; simp
  rw [e]
  refine (measureReal_biUnion_finset_le _ _).trans ((Finset.sum_le_sum fun i _ => hoeffding_group hU (hF i) (hb i) nt hε).trans_eq ?_)
  simp only [Finset.sum_const, Finset.card_univ, Fintype.card_fin, nsmul_eq_mul]
  ring

end Law

/-- part of the error that comes from the unknown share of the escaping light that is seen (none if all is seen) -/
noncomputable def shareError (seen escaped tol : ℝ) : ℝ := if seen = escaped then 0 else 2 * tol / escaped

theorem share_error {s e s' e' η ε : ℝ} (hη : 0 < η) (hs : 0 ≤ s) (hse : s ≤ e) (hs' : 0 ≤ s') (hse' : s' ≤ e')
    (hall : s' = e' → s = e) (h1 : |s - s'| ≤ ε) (h2 : |e - e'| ≤ ε) :
    (0 ≤ max s η / max e η ∧ max s η / max e η ≤ 1) ∧ |max s η / max e η - Photon.meanShare s' e'| ≤ shareError s' e' (ε + η) := by
  have hε : 0 ≤ ε := (abs_nonneg _).trans h1
  have hM : 0 < max e η := lt_max_of_lt_right hη
  have hsh : 0 ≤ max s η / max e η ∧ max s η / max e η ≤ 1 :=
    ⟨div_nonneg (hs.trans (le_max_left _ _)) hM.le, div_le_one_of_le₀ (max_le_max hse le_rfl) hM.le⟩
  refine ⟨hsh, ?_⟩
  unfold shareError Photon.meanShare
  by_cases h : s' = e'
  · rw [if_pos h, hall h, div_self hM.ne']
    by_cases h0 : e' = 0
    · rw [if_pos h0]; simp
    · rw [if_neg h0, h, div_self h0]; simp
  · have he' : 0 < e' := lt_of_le_of_lt hs' (lt_of_le_of_ne hse' h)
    rw [if_neg h, if_neg he'.ne']
    have hmax : ∀ {x x' : ℝ}, 0 ≤ x' → |x - x'| ≤ ε → |max x η - x'| ≤ ε + η := by
      intro x x' hx' hx
      rw [abs_le] at hx ⊢
      rcases max_cases x η with ⟨h, _⟩ | ⟨h, h'⟩ <;> rw [h] <;> constructor <;> linarith [hx.1, hx.2]
    have a1 := hmax hs' h1
    have a2 := hmax (hs'.trans hse') h2
    have key : max s η / max e η - s' / e' = ((max s η - s') + max s η / max e η * (e' - max e η)) / e' := by
      field_simp
      ring
    rw [key, abs_div, abs_of_pos he', div_le_div_iff_of_pos_right he']
    refine (abs_add_le _ _).trans ?_
    rw [abs_mul, abs_of_nonneg hsh.1, abs_sub_comm e']
    have := mul_le_of_le_one_left (abs_nonneg (max e η - e')) hsh.2
    linarith

theorem estimate_error {si bR bT τ x y sh si' bR' bT' τ' K' x' y' sh' ε δ : ℝ}
    (hsi : |si - si'| ≤ ε) (hbR : |bR - bR'| ≤ ε) (hbT : |bT - bT'| ≤ ε) (hτ : |τ - τ'| ≤ ε) (hx : |x - x'| ≤ 2 * ε / K') (hy : |y - y'| ≤ 2 * ε / K')
    (hx0 : 0 ≤ x) (hy0 : 0 ≤ y) (hxy : x + y ≤ 1) (hx0' : 0 ≤ x') (hy0' : 0 ≤ y') (hxy' : x' + y' ≤ 1)
    (hbR' : 0 ≤ bR') (hbT' : 0 ≤ bT') (hτ' : 0 ≤ τ') (hK' : 0 < K') (hsum : bR' + bT' + τ' + K' ≤ 1)
    (hsh : 0 ≤ sh ∧ sh ≤ 1) (hδ : |sh - sh'| ≤ δ) :
    |(si + (bR * x + bT * y + τ / 2) * sh) - (si' + (bR' * x' + bT' * y' + τ' / 2) * sh')| ≤ (5 / 2 + 2 / K') * ε + δ := by
  have hε : 0 ≤ ε := (abs_nonneg _).trans hsi
  have hδ0 : 0 ≤ δ := (abs_nonneg _).trans hδ
  have hx1' : x' ≤ 1 := by linarith
  have hy1' : y' ≤ 1 := by linarith
  have hB : 0 ≤ bR' * x' + bT' * y' + τ' / 2 ∧ bR' * x' + bT' * y' + τ' / 2 ≤ 1 := by
    constructor
    · positivity
    · have := mul_le_of_le_one_right hbR' hx1'
      have := mul_le_of_le_one_right hbT' hy1'
      linarith
  have hq : 0 ≤ 2 * ε / K' := by positivity
  have hBd : |(bR * x + bT * y + τ / 2) - (bR' * x' + bT' * y' + τ' / 2)| ≤ 3 / 2 * ε + 2 * ε / K' := by
    have e : (bR * x + bT * y + τ / 2) - (bR' * x' + bT' * y' + τ' / 2) =
        ((bR - bR') * x + (bT - bT') * y) + (bR' * (x - x') + bT' * (y - y')) + (τ - τ') / 2 := by ring
    rw [e]
    refine (abs_add_le _ _).trans ?_
    refine (add_le_add_left (abs_add_le _ _) _).trans ?_
    refine (add_le_add_left (add_le_add (abs_add_le _ _) (abs_add_le _ _)) _).trans ?_
    rw [abs_mul, abs_mul, abs_mul, abs_mul, abs_div, abs_of_nonneg hx0, abs_of_nonneg hy0, abs_of_nonneg hbR', abs_of_nonneg hbT', abs_two]
    have i1 := mul_le_mul_of_nonneg_right hbR hx0
    have i2 := mul_le_mul_of_nonneg_right hbT hy0
    have i3 := mul_le_mul_of_nonneg_left hx hbR'
    have i4 := mul_le_mul_of_nonneg_left hy hbT'
    have i5 := mul_le_mul_of_nonneg_left hxy hε
    have i6 := mul_le_mul_of_nonneg_right (show bR' + bT' ≤ 1 by linarith) hq
    nlinarith
  have e : (si + (bR * x + bT * y + τ / 2) * sh) - (si' + (bR' * x' + bT' * y' + τ' / 2) * sh') =
      (si - si') + ((bR * x + bT * y + τ / 2) - (bR' * x' + bT' * y' + τ' / 2)) * sh + (bR' * x' + bT' * y' + τ' / 2) * (sh - sh') := by ring
  rw [e]
  refine (abs_add_le _ _).trans ?_
  refine (add_le_add_left (abs_add_le _ _) _).trans ?_
  rw [abs_mul, abs_mul, abs_of_nonneg hsh.1, abs_of_nonneg hB.1]
  have j1 := mul_le_of_le_one_right (abs_nonneg ((bR * x + bT * y + τ / 2) - (bR' * x' + bT' * y' + τ' / 2))) hsh.2
  have j2 := mul_le_of_le_one_left (abs_nonneg (sh - sh')) hB.2
  have e2 : (5 / 2 + 2 / K') * ε = ε + (3 / 2 * ε + 2 * ε / K') := by ring
  rw [e2]
  linarith

theorem ratio_error {e K e' K' ε : ℝ} (hK : 0 < K) (hK' : 0 < K') (he : 0 ≤ e) (heK : e ≤ K) (h1 : |e - e'| ≤ ε) (h2 : |K - K'| ≤ ε) :
    |e / K - e' / K'| ≤ 2 * ε / K' := by
  have hx : 0 ≤ e / K ∧ e / K ≤ 1 := ⟨by positivity, div_le_one_of_le₀ heK hK.le⟩
  have e1 : e / K - e' / K' = ((e - e') + e / K * (K' - K)) / K' := by field_simp; ring
  rw [e1, abs_div, abs_of_pos hK', div_le_div_iff_of_pos_right hK']
  refine (abs_add_le _ _).trans ?_
  rw [abs_mul, abs_of_nonneg hx.1, abs_sub_comm K']
  have := mul_le_of_le_one_left (abs_nonneg (K - K')) hx.2
  linarith

/-- C143 in general: each photon is a fixed measurable function `G` of its own draws, `R` and `T` are the estimates from the first `nt + 1`
photons -/
theorem error_core {Ω κ : Type} [MeasurableSpace Ω] {P : Measure Ω} [IsProbabilityMeasure P] {U : ℕ × κ → Ω → ℝ}
    (hU : UniformDraws P U) {G : (κ → ℝ) → Photon} (M : PhotonMeas G) (hok : ∀ j ω, PhotonOK (G (group U j ω)))
    {p : Ω → Photon} (hp : ∀ ω, p ω = G (group U 0 ω)) (nt : ℕ) (R T : Ω → XF)
    (hrun : ∀ᵐ ω ∂P, ((Photon.known (fun j : Fin (nt + 1) => G (group U j ω)) = 0 ∧ R ω = nan ∧ T ω = nan) ∨
       (Photon.known (fun j : Fin (nt + 1) => G (group U j ω)) ≠ 0 ∧
         R ω = fin (∑ j, Photon.refl (fun j : Fin (nt + 1) => G (group U j ω)) j) ∧
         T ω = fin (∑ j, Photon.trans (fun j : Fin (nt + 1) => G (group U j ω)) j))))
    {ε : ℝ} (hε : 0 ≤ ε) (hK : ε < Photon.meanKnown P p) :
    P.real {ω | ¬ ∃ r t : ℝ, R ω = fin r ∧ T ω = fin t ∧
      |r - Photon.meanRefl P p| ≤ (5 / 2 + 2 / Photon.meanKnown P p) * ε +
        shareError (Photon.meanSeenR P p) (Photon.meanEscR P p) (ε + 1 / 10 ^ 9 / ((nt + 1 : ℕ) : ℝ)) ∧
      |t - Photon.meanTrans P p| ≤ (5 / 2 + 2 / Photon.meanKnown P p) * ε +
        shareError (Photon.meanSeenT P p) (Photon.meanEscT P p) (ε + 1 / 10 ^ 9 / ((nt + 1 : ℕ) : ℝ))} ≤
      18 * Real.exp (-2 * ((nt + 1 : ℕ) : ℝ) * ε ^ 2) := by
  have habs : ∀ {x : ℝ}, IsFraction x → |x| ≤ 1 := fun h => abs_le.mpr ⟨by linarith [h.1], h.2⟩
  have hmul : ∀ {x y : ℝ}, IsFraction x → IsFraction y → IsFraction (x * y) := fun hx hy =>
    ⟨mul_nonneg hx.1 hy.1, mul_le_one₀ hx.2 hy.1 hy.2⟩
  have hsub : ∀ {x : ℝ}, IsFraction x → IsFraction (1 - x) := fun hx => ⟨by linarith [hx.2], by linarith [hx.1]⟩
  have hite : ∀ {x : ℝ} (q : Prop), IsFraction x → IsFraction (if q then x else 0) := fun q hx => by
    split
    · exact hx
    · exact ⟨le_rfl, zero_le_one⟩
  have hile : ∀ {x : ℝ} (q : Prop), IsFraction x → (if q then x else 0) ≤ x := fun q hx => by
    split
    · exact le_rfl
    · exact hx.1
  have mseenR : Measurable fun x => if (G x).seenR then (G x).outR * (G x).escR else 0 := Measurable.ite M.seenR (M.outR.mul M.escR) measurable_const
  have mseenT : Measurable fun x => if (G x).seenT then (G x).outT * (G x).escT else 0 := Measurable.ite M.seenT (M.outT.mul M.escT) measurable_const
  have minc : Measurable fun x => if (G x).seenInc then 1 - (G x).enter else 0 := Measurable.ite M.seenInc (measurable_const.sub M.enter) measurable_const
  have mbR : Measurable fun x => (G x).outR * (1 - (G x).escR) := M.outR.mul (measurable_const.sub M.escR)
  have mbT : Measurable fun x => (G x).outT * (1 - (G x).escT) := M.outT.mul (measurable_const.sub M.escT)
  have mab : Measurable fun x => (G x).enter - (G x).outR - (G x).outT - (G x).trapped := ((M.enter.sub M.outR).sub M.outT).sub M.trapped
  have meR : Measurable fun x => (G x).outR * (G x).escR := M.outR.mul M.escR
  have meT : Measurable fun x => (G x).outT * (G x).escT := M.outT.mul M.escT
  have fR := fun j ω => hmul (hok j ω).outR (hok j ω).escR
  have fT := fun j ω => hmul (hok j ω).outT (hok j ω).escT
  have fbR := fun j ω => hmul (hok j ω).outR (hsub (hok j ω).escR)
  have fbT := fun j ω => hmul (hok j ω).outT (hsub (hok j ω).escT)
  have fsR := fun j ω => hite (G (group U j ω)).seenR (fR j ω)
  have fsT := fun j ω => hite (G (group U j ω)).seenT (fT j ω)
  have fi := fun j ω => hite (G (group U j ω)).seenInc (hsub (hok j ω).enter)
  have fab : ∀ j ω, IsFraction ((G (group U j ω)).enter - (G (group U j ω)).outR - (G (group U j ω)).outT - (G (group U j ω)).trapped) :=
    fun j ω => ⟨by linarith [(hok j ω).sum], by linarith [(hok j ω).enter.2, (hok j ω).outR.1, (hok j ω).outT.1, (hok j ω).trapped.1]⟩
  -- sums of light over the possible final states
  have fsi : ∀ j ω, IsFraction ((if (G (group U j ω)).seenR then (G (group U j ω)).outR * (G (group U j ω)).escR else 0) +
      (if (G (group U j ω)).seenInc then 1 - (G (group U j ω)).enter else 0)) := by
    intro j ω
    refine ⟨add_nonneg (fsR j ω).1 (fi j ω).1, ?_⟩
    have h1 := hile (G (group U j ω)).seenR (fR j ω)
    have h2 := hile (G (group U j ω)).seenInc (hsub (hok j ω).enter)
    have h3 := mul_le_of_le_one_right (hok j ω).outR.1 (hok j ω).escR.2
    linarith [(hok j ω).sum, (hok j ω).outT.1, (hok j ω).trapped.1]
  have htot : ∀ j ω, (G (group U j ω)).outR * (1 - (G (group U j ω)).escR) + (G (group U j ω)).outT * (1 - (G (group U j ω)).escT) +
      (G (group U j ω)).trapped + ((G (group U j ω)).enter - (G (group U j ω)).outR - (G (group U j ω)).outT - (G (group U j ω)).trapped +
        (G (group U j ω)).outR * (G (group U j ω)).escR + (G (group U j ω)).outT * (G (group U j ω)).escT) = (G (group U j ω)).enter := by
    intro j ω; ring
  have fk : ∀ j ω, IsFraction ((G (group U j ω)).enter - (G (group U j ω)).outR - (G (group U j ω)).outT - (G (group U j ω)).trapped +
        (G (group U j ω)).outR * (G (group U j ω)).escR + (G (group U j ω)).outT * (G (group U j ω)).escT) := fun j ω =>
    ⟨add_nonneg (add_nonneg (fab j ω).1 (fR j ω).1) (fT j ω).1,
      by linarith [htot j ω, (fbR j ω).1, (fbT j ω).1, (hok j ω).trapped.1, (hok j ω).enter.2]⟩
  let F : Fin 9 → (κ → ℝ) → ℝ := ![fun x => (if (G x).seenR then (G x).outR * (G x).escR else 0) + (if (G x).seenInc then 1 - (G x).enter else 0),
    fun x => if (G x).seenR then (G x).outR * (G x).escR else 0, fun x => if (G x).seenT then (G x).outT * (G x).escT else 0,
    fun x => (G x).outR * (1 - (G x).escR), fun x => (G x).outT * (1 - (G x).escT), fun x => (G x).trapped,
    fun x => (G x).outR * (G x).escR, fun x => (G x).outT * (G x).escT,
    fun x => (G x).enter - (G x).outR - (G x).outT - (G x).trapped + (G x).outR * (G x).escR + (G x).outT * (G x).escT]
  have hF : ∀ i, Measurable (F i) := by
    intro i
    fin_cases i
    · exact mseenR.add minc
    · exact mseenR
    · exact mseenT
    · exact mbR
    · exact mbT
    · exact M.trapped
    · exact meR
    · exact meT
    · exact (mab.add meR).add meT
  have hFb : ∀ i j ω, IsFraction (F i (group U j ω)) := by
    intro i j ω
    fin_cases i
    · exact fsi j ω
    · exact fsR j ω
    · exact fsT j ω
    · exact fbR j ω
    · exact fbT j ω
    · exact (hok j ω).trapped
    · exact fR j ω
    · exact fT j ω
    · exact fk j ω
  have hint : ∀ {f : (κ → ℝ) → ℝ}, Measurable f → (∀ ω, IsFraction (f (group U 0 ω))) → Integrable (fun ω => f (group U 0 ω)) P :=
    fun hf hb => Integrable.of_bound (hf.comp (group_meas hU 0)).aestronglyMeasurable 1 (Eventually.of_forall fun ω => habs (hb ω))
  have iR := hint meR (fR 0)
  have iT := hint meT (fT 0)
  have isR := hint mseenR (fsR 0)
  have isT := hint mseenT (fsT 0)
  have ii := hint minc (fi 0)
  have ibR := hint mbR (fbR 0)
  have ibT := hint mbT (fbT 0)
  have iτ := hint M.trapped (fun ω => (hok 0 ω).trapped)
  have iab := hint mab (fab 0)
  have ien := hint M.enter (fun ω => (hok 0 ω).enter)
  have ik := hint ((mab.add meR).add meT) (fk 0)
  -- the means
  have eSI : ∫ ω, F 0 (group U 0 ω) ∂P = Photon.meanSeenR P p + Photon.meanInc P p := by
    simp only [Photon.meanSeenR, Photon.meanInc, hp]; exact integral_add isR ii
  have eK : ∫ ω, F 8 (group U 0 ω) ∂P = Photon.meanKnown P p := by
    simp only [Photon.meanKnown, Photon.meanEscR, Photon.meanEscT, hp]
    have a1 := integral_add iab iR
    have a2 := integral_add (iab.add iR) iT
    refine a2.trans ?_
    congr 1
  have e1 : ∫ ω, F 1 (group U 0 ω) ∂P = Photon.meanSeenR P p := by simp only [Photon.meanSeenR, hp]; rfl
  have e2 : ∫ ω, F 2 (group U 0 ω) ∂P = Photon.meanSeenT P p := by simp only [Photon.meanSeenT, hp]; rfl
  have e3 : ∫ ω, F 3 (group U 0 ω) ∂P = Photon.meanBackR P p := by simp only [Photon.meanBackR, hp]; rfl
  have e4 : ∫ ω, F 4 (group U 0 ω) ∂P = Photon.meanBackT P p := by simp only [Photon.meanBackT, hp]; rfl
  have e5 : ∫ ω, F 5 (group U 0 ω) ∂P = Photon.meanTrapped P p := by simp only [Photon.meanTrapped, hp]; rfl
  have e6 : ∫ ω, F 6 (group U 0 ω) ∂P = Photon.meanEscR P p := by simp only [Photon.meanEscR, hp]; rfl
  have e7 : ∫ ω, F 7 (group U 0 ω) ∂P = Photon.meanEscT P p := by simp only [Photon.meanEscT, hp]; rfl
  have hR0 : 0 ≤ Photon.meanEscR P p := e6 ▸ integral_nonneg fun ω => (fR 0 ω).1
  have hT0 : 0 ≤ Photon.meanEscT P p := e7 ▸ integral_nonneg fun ω => (fT 0 ω).1
  have hsR0 : 0 ≤ Photon.meanSeenR P p := e1 ▸ integral_nonneg fun ω => (fsR 0 ω).1
  have hsT0 : 0 ≤ Photon.meanSeenT P p := e2 ▸ integral_nonneg fun ω => (fsT 0 ω).1
  have hbR0 : 0 ≤ Photon.meanBackR P p := e3 ▸ integral_nonneg fun ω => (fbR 0 ω).1
  have hbT0 : 0 ≤ Photon.meanBackT P p := e4 ▸ integral_nonneg fun ω => (fbT 0 ω).1
  have hτ0 : 0 ≤ Photon.meanTrapped P p := e5 ▸ integral_nonneg fun ω => (hok 0 ω).trapped.1
  have hsR1 : Photon.meanSeenR P p ≤ Photon.meanEscR P p := e1 ▸ e6 ▸ integral_mono isR iR fun ω => hile _ (fR 0 ω)
  have hsT1 : Photon.meanSeenT P p ≤ Photon.meanEscT P p := e2 ▸ e7 ▸ integral_mono isT iT fun ω => hile _ (fT 0 ω)
  have hKpos : 0 < Photon.meanKnown P p := lt_of_le_of_lt hε hK
  have hab0 : 0 ≤ ∫ ω, ((p ω).enter - (p ω).outR - (p ω).outT - (p ω).trapped) ∂P := by
    simp only [hp]; exact integral_nonneg fun ω => (fab 0 ω).1
  have hKsum : Photon.meanEscR P p + Photon.meanEscT P p ≤ Photon.meanKnown P p := by
    unfold Photon.meanKnown; linarith
  have hsum : Photon.meanBackR P p + Photon.meanBackT P p + Photon.meanTrapped P p + Photon.meanKnown P p ≤ 1 := by
    rw [← e3, ← e4, ← e5, ← eK]
    have : ∫ ω, (G (group U 0 ω)).enter ∂P ≤ 1 := by
      refine (integral_mono ien (integrable_const 1) fun ω => (hok 0 ω).enter.2).trans_eq ?_
      simp
    refine le_trans (le_of_eq ?_) this
    have a1 := integral_add ibR ibT
    have a2 := integral_add (ibR.add ibT) iτ
    have a3 := integral_add ((ibR.add ibT).add iτ) ik
    refine Eq.trans (Eq.symm ?_) (integral_congr_ae (Eventually.of_forall fun ω => htot 0 ω))
    refine a3.trans ?_
    congr 1
    refine a2.trans ?_
    congr 1
  -- all seen on average: all seen
  have zR : ∀ᵐ ω ∂P, Photon.meanSeenR P p = Photon.meanEscR P p → ∀ j,
      (if (G (group U j ω)).seenR then (G (group U j ω)).outR * (G (group U j ω)).escR else 0) = (G (group U j ω)).outR * (G (group U j ω)).escR := by
    by_cases h : Photon.meanSeenR P p = Photon.meanEscR P p
    · have := group_zero hU (F := fun x => (G x).outR * (G x).escR - (if (G x).seenR then (G x).outR * (G x).escR else 0)) (meR.sub mseenR) (C := 1)
        (fun ω => habs ⟨by linarith [hile (G (group U 0 ω)).seenR (fR 0 ω)], by linarith [(fR 0 ω).2, (fsR 0 ω).1]⟩)
        (fun ω => by linarith [hile (G (group U 0 ω)).seenR (fR 0 ω)]) (by
          rw [integral_sub iR isR]
          have := e6.trans (h.symm.trans e1.symm)
          exact sub_eq_zero.mpr this)
      filter_upwards [this] with ω hω _ j
      linarith [hω j]
    · exact Eventually.of_forall fun ω h' => absurd h' h
  have zT : ∀ᵐ ω ∂P, Photon.meanSeenT P p = Photon.meanEscT P p → ∀ j,
      (if (G (group U j ω)).seenT then (G (group U j ω)).outT * (G (group U j ω)).escT else 0) = (G (group U j ω)).outT * (G (group U j ω)).escT := by
    by_cases h : Photon.meanSeenT P p = Photon.meanEscT P p
    · have := group_zero hU (F := fun x => (G x).outT * (G x).escT - (if (G x).seenT then (G x).outT * (G x).escT else 0)) (meT.sub mseenT) (C := 1)
        (fun ω => habs ⟨by linarith [hile (G (group U 0 ω)).seenT (fT 0 ω)], by linarith [(fT 0 ω).2, (fsT 0 ω).1]⟩)
        (fun ω => by linarith [hile (G (group U 0 ω)).seenT (fT 0 ω)]) (by
          rw [integral_sub iT isT]
          have := e7.trans (h.symm.trans e2.symm)
          exact sub_eq_zero.mpr this)
      filter_upwards [this] with ω hω _ j
      linarith [hω j]
    · exact Eventually.of_forall fun ω h' => absurd h' h
  have hH := hoeffding_all hU hF hFb nt hε
  have h18 : 2 * ((9 : ℕ) : ℝ) = 18 := by norm_num
  rw [h18] at hH
  refine le_trans ?_ hH
  refine ENNReal.toReal_mono (measure_ne_top _ _) (measure_mono_ae ?_)
  filter_upwards [zR, zT, hrun] with ω wR wT hω
  intro hbad hgood
  refine hbad ?_
  have hN : (0 : ℝ) < ((nt + 1 : ℕ) : ℝ) := by positivity
  have g0 := (hgood 0).le
  have g1 := (hgood 1).le
  have g2 := (hgood 2).le
  have g3 := (hgood 3).le
  have g4 := (hgood 4).le
  have g5 := (hgood 5).le
  have g6 := (hgood 6).le
  have g7 := (hgood 7).le
  have g8 := (hgood 8)
  rw [eSI] at g0
  rw [e1] at g1
  rw [e2] at g2
  rw [e3] at g3
  rw [e4] at g4
  rw [e5] at g5
  rw [e6] at g6
  rw [e7] at g7
  rw [eK] at g8
  have hkn : Photon.known (fun j : Fin (nt + 1) => G (group U j ω)) = ∑ j : Fin (nt + 1), F 8 (group U j ω) := by
    unfold Photon.known Photon.absorbed Photon.escapedR Photon.escapedT
    rw [← Finset.sum_add_distrib, ← Finset.sum_add_distrib]
    rfl
  set N : ℝ := ((nt + 1 : ℕ) : ℝ) with hNdef
  have havg0 : ∀ i, 0 ≤ (∑ j : Fin (nt + 1), F i (group U j ω)) / N := fun i =>
    div_nonneg (Finset.sum_nonneg fun j _ => (hFb i j ω).1) hN.le
  have hKw : 0 < (∑ j : Fin (nt + 1), F 8 (group U j ω)) / N := by linarith [(abs_lt.mp g8).1]
  have hknpos : 0 < Photon.known (fun j : Fin (nt + 1) => G (group U j ω)) := by
    rw [hkn]
    exact (div_pos_iff_of_pos_right hN).mp hKw
  rcases hω with ⟨h, -⟩ | ⟨-, hRr, hTr⟩
  · exact absurd h hknpos.ne'
  have hle : ∀ {i k : Fin 9}, (∀ j, F i (group U j ω) ≤ F k (group U j ω)) →
      (∑ j : Fin (nt + 1), F i (group U j ω)) / N ≤ (∑ j : Fin (nt + 1), F k (group U j ω)) / N := fun h =>
    (div_le_div_iff_of_pos_right hN).mpr (Finset.sum_le_sum fun j _ => h j)
  have hsum67 : (∑ j : Fin (nt + 1), F 6 (group U j ω)) / N + (∑ j : Fin (nt + 1), F 7 (group U j ω)) / N ≤
      (∑ j : Fin (nt + 1), F 8 (group U j ω)) / N := by
    rw [← add_div, ← Finset.sum_add_distrib]
    refine (div_le_div_iff_of_pos_right hN).mpr (Finset.sum_le_sum fun j _ => ?_)
    have := (fab j ω).1
    show (G (group U j ω)).outR * (G (group U j ω)).escR + (G (group U j ω)).outT * (G (group U j ω)).escT ≤
      (G (group U j ω)).enter - (G (group U j ω)).outR - (G (group U j ω)).outT - (G (group U j ω)).trapped +
        (G (group U j ω)).outR * (G (group U j ω)).escR + (G (group U j ω)).outT * (G (group U j ω)).escT
    linarith
  have hη : (0 : ℝ) < 1 / 10 ^ 9 / N := by positivity
  obtain ⟨shR, shRd⟩ := share_error hη (havg0 1) (hle (i := 1) (k := 6) fun j => hile _ (fR j ω)) hsR0 hsR1
    (fun h => by
      congr 1
      exact Finset.sum_congr rfl fun j _ => wR h j) g1 g6
  obtain ⟨shT, shTd⟩ := share_error hη (havg0 2) (hle (i := 2) (k := 7) fun j => hile _ (fT j ω)) hsT0 hsT1
    (fun h => by
      congr 1
      exact Finset.sum_congr rfl fun j _ => wT h j) g2 g7
  have xR := ratio_error hKw hKpos (havg0 6) (by linarith [havg0 7]) g6 g8.le
  have xT := ratio_error hKw hKpos (havg0 7) (by linarith [havg0 6]) g7 g8.le
  have hxy : (∑ j : Fin (nt + 1), F 6 (group U j ω)) / N / ((∑ j : Fin (nt + 1), F 8 (group U j ω)) / N) +
      (∑ j : Fin (nt + 1), F 7 (group U j ω)) / N / ((∑ j : Fin (nt + 1), F 8 (group U j ω)) / N) ≤ 1 := by
    rw [← add_div]; exact div_le_one_of_le₀ hsum67 hKw.le
  have hxy' : Photon.meanEscR P p / Photon.meanKnown P p + Photon.meanEscT P p / Photon.meanKnown P p ≤ 1 := by
    rw [← add_div]; exact div_le_one_of_le₀ hKsum hKpos.le
  have x0 := div_nonneg (havg0 6) hKw.le
  have y0 := div_nonneg (havg0 7) hKw.le
  have x0' := div_nonneg hR0 hKpos.le
  have y0' := div_nonneg hT0 hKpos.le
  have BR := estimate_error g0 g3 g4 g5 xR xT x0 y0 hxy x0' y0' hxy' hbR0 hbT0 hτ0 hKpos hsum shR shRd
  have BT := estimate_error g2 g4 g3 g5 xR xT x0 y0 hxy x0' y0' hxy' hbT0 hbR0 hτ0 hKpos (by linarith) shT shTd
  have s0 : ∑ j : Fin (nt + 1), F 0 (group U j ω) = ∑ j : Fin (nt + 1), (if (G (group U j ω)).seenR then (G (group U j ω)).outR * (G (group U j ω)).escR else 0) +
      ∑ j : Fin (nt + 1), (if (G (group U j ω)).seenInc then 1 - (G (group U j ω)).enter else 0) := by
    rw [← Finset.sum_add_distrib]; rfl
  have s1 : ∑ j : Fin (nt + 1), F 1 (group U j ω) = ∑ j : Fin (nt + 1), (if (G (group U j ω)).seenR then (G (group U j ω)).outR * (G (group U j ω)).escR else 0) := rfl
  have s2 : ∑ j : Fin (nt + 1), F 2 (group U j ω) = ∑ j : Fin (nt + 1), (if (G (group U j ω)).seenT then (G (group U j ω)).outT * (G (group U j ω)).escT else 0) := rfl
  have s3 : ∑ j : Fin (nt + 1), F 3 (group U j ω) = ∑ j : Fin (nt + 1), (G (group U j ω)).outR * (1 - (G (group U j ω)).escR) := rfl
  have s4 : ∑ j : Fin (nt + 1), F 4 (group U j ω) = ∑ j : Fin (nt + 1), (G (group U j ω)).outT * (1 - (G (group U j ω)).escT) := rfl
  have s5 : ∑ j : Fin (nt + 1), F 5 (group U j ω) = ∑ j : Fin (nt + 1), (G (group U j ω)).trapped := rfl
  have s6 : ∑ j : Fin (nt + 1), F 6 (group U j ω) = ∑ j : Fin (nt + 1), (G (group U j ω)).outR * (G (group U j ω)).escR := rfl
  have s7 : ∑ j : Fin (nt + 1), F 7 (group U j ω) = ∑ j : Fin (nt + 1), (G (group U j ω)).outT * (G (group U j ω)).escT := rfl
  refine ⟨_, _, hRr, hTr, le_of_eq_of_le ?_ BR, le_of_eq_of_le ?_ BT⟩
  · congr 1
    refine congrArg₂ _ ?_ rfl
    rw [max_div_div_right hN.le, max_div_div_right hN.le, div_div_div_cancel_right₀ hN.ne', div_div_div_cancel_right₀ hN.ne',
      div_div_div_cancel_right₀ hN.ne', ← hkn, s0, s1, s3, s4, s5, s6, s7]
    simp only [Photon.refl, ← Finset.sum_div, Finset.sum_add_distrib, ← Finset.sum_mul, Photon.escapedR, Photon.escapedT, Photon.shareR]
    rw [← hNdef]
    ring
  · congr 1
    refine congrArg₂ _ ?_ rfl
    rw [max_div_div_right hN.le, max_div_div_right hN.le, div_div_div_cancel_right₀ hN.ne', div_div_div_cancel_right₀ hN.ne',
      div_div_div_cancel_right₀ hN.ne', ← hkn, s2, s3, s4, s5, s6, s7]
    simp only [Photon.trans, ← Finset.sum_div, Finset.sum_add_distrib, ← Finset.sum_mul, Photon.escapedR, Photon.escapedT, Photon.shareT]
    rw [← hNdef]
    ring

/-- C143.  **Statistical error of reflectance and transmittance.**  A smooth film is simulated with `nt + 1` trajectories fed with independent uniform
numbers.  `p ω` is the photon of a run with a single trajectory.  For every `ε` below the expected light of known final state, except
with probability at most `18 exp(-2 (nt + 1) ε²)`, reflectance and transmittance are numbers that differ from the expected ones by at most
`(5/2 + 2/known) ε`, plus, for a detector that does not see all of the escaping light, twice `ε` (and the floor of `10⁻⁹` in the code,
divided by the number of trajectories) over the expected escaping light. -/
theorem C143_error_bound {n : ℕ} {Ω : Type} [MeasurableSpace Ω] (P : Measure Ω) [IsProbabilityMeasure P] (U : ℕ × Draw → Ω → ℝ)
    (hU : UniformDraws P U) {θ0 θ1 φ0 φ1 : ℝ} {phase : Fin (n + 1) → ℝ} {m mu mua : ℝ} (a : (nt : ℕ) → Ω → Args (nt + 1))
    (S : (nt : ℕ) → Ω → Sampling (nt + 1) (n + 1)) (d : DetArgs) (R : StreamRun U θ0 θ1 φ0 φ1 phase m mu mua a S)
    (H : ∀ nt ω, FilmRun (a nt ω) (S nt ω) d) (hfine : d.fine_roughness = 0) (hg : d.gonio = none) (hth : d.z_low < d.thickness) (nev nt : ℕ)
    (rt : Ω → Weights.RT (nt + 1)) (hrt : ∀ ω, runFilm nev (a nt ω) (S nt ω) d = .ok (rt ω))
    (t1 : Ω → Trajs 1) (ht1 : ∀ ω, simulate (nev + 1) (a 0 ω) (S 0 ω) = .ok (t1 ω)) {ε : ℝ} (hε : 0 ≤ ε)
    (hK : ε < Photon.meanKnown P (fun ω => simPhoton nev d (t1 ω) 0)) :
    let p : Ω → Photon := fun ω => simPhoton nev d (t1 ω) 0
    P.real {ω | ¬ ∃ r t : ℝ, (rt ω).R = fin r ∧ (rt ω).T = fin t ∧
      |r - Photon.meanRefl P p| ≤ (5 / 2 + 2 / Photon.meanKnown P p) * ε +
        shareError (Photon.meanSeenR P p) (Photon.meanEscR P p) (ε + 1 / 10 ^ 9 / ((nt + 1 : ℕ) : ℝ)) ∧
      |t - Photon.meanTrans P p| ≤ (5 / 2 + 2 / Photon.meanKnown P p) * ε +
        shareError (Photon.meanSeenT P p) (Photon.meanEscT P p) (ε + 1 / 10 ^ 9 / ((nt + 1 : ℕ) : ℝ))} ≤
      18 * Real.exp (-2 * ((nt + 1 : ℕ) : ℝ) * ε ^ 2) := by
  intro p
  obtain ⟨ω0⟩ : Nonempty Ω := by
    by_contra h
    rw [not_nonempty_iff] at h
    have := (inferInstance : IsProbabilityMeasure P).measure_univ
    rw [Set.eq_empty_of_isEmpty (Set.univ : Set Ω), measure_empty] at this
    exact zero_ne_one this
  obtain ⟨G, M, hcol⟩ := photon_function R H hth nev ω0
  choose t ht using fun nt ω => simulate_facts (H nt ω) nev
  have hsim : ∀ nt ω, simulate (nev + 1) (a nt ω) (S nt ω) = .ok (t nt ω) := fun nt ω => (ht nt ω).1
  have hp : ∀ ω, p ω = G (group U 0 ω) := fun ω => hcol 0 ω (t1 ω) (ht1 ω) 0
  have e : ∀ nt ω, simPhoton nev d (t nt ω) = fun j : Fin (nt + 1) => G (group U j ω) := fun nt ω => funext (hcol nt ω _ (hsim nt ω))
  have hok : ∀ j ω, PhotonOK (G (group U j ω)) := by
    intro j ω
    have h := (run_photons (H j ω) (R.smooth j ω) hfine hg hth (hsim j ω)).1 (Fin.last j)
    rw [e] at h
    exact h
  refine error_core hU M hok hp nt (fun ω => (rt ω).R) (fun ω => (rt ω).T) (Eventually.of_forall fun ω => ?_) hε hK
  obtain ⟨-, rt', hrt', h2⟩ := run_photons (H nt ω) (R.smooth nt ω) hfine hg hth (hsim nt ω)
  rw [hrt ω] at hrt'
  injection hrt' with hrt'
  subst hrt'
  rw [e] at h2
  exact h2

/-- at a smooth surface all light that escapes is seen by a detector that covers the hemisphere -/
theorem smooth_all_seen {nev : ℕ} {o : FilmOptics} (hs : o.sample = o.surface) (h0 : 0 < o.surface) (hm : 0 < o.outside)
    (hlim : o.limit = Real.pi / 2) (bot top : ℝ) (z : Fin (nev + 2) → ℝ) (kz w : Fin (nev + 1) → ℝ) :
    ((smoothPhoton o bot top z kz w).escR ≠ 0 → (smoothPhoton o bot top z kz w).seenR) ∧
    ((smoothPhoton o bot top z kz w).escT ≠ 0 → (smoothPhoton o bot top z kz w).seenT) := by
  have key : ∀ (pl : Option ℝ) (x : ℝ), platePass o.surface pl o.outside (Real.arccos |x|) ≠ 0 →
      SeenWithin o.sample o.outside o.limit (Real.arccos |x|) := by
    intro pl x hne
    have hsin : 0 ≤ Real.sin (Real.arccos |x|) := Real.sin_nonneg_of_nonneg_of_le_pi (Real.arccos_nonneg _) (Real.arccos_le_pi _)
    have hlt : o.surface * Real.sin (Real.arccos |x|) < o.outside := by
      by_contra h
      refine hne ?_
      unfold platePass
      simp only
      rw [if_pos (Or.inr (Or.inl (not_lt.mp h)))]
    have hq : o.surface * Real.sin (Real.arccos |x|) / o.outside ≤ 1 := div_le_one_of_le₀ hlt.le hm.le
    have hq0 : 0 ≤ o.surface * Real.sin (Real.arccos |x|) / o.outside := by positivity
    have hr := Real.arcsin_le_pi_div_two (o.surface * Real.sin (Real.arccos |x|) / o.outside)
    refine ⟨Real.arcsin (o.surface * Real.sin (Real.arccos |x|) / o.outside), ?_, ?_, by rw [hlim]; exact hr⟩
    · have := Real.arcsin_nonneg.mpr hq0
      exact ⟨by linarith [Real.pi_pos], hr⟩
    · unfold Snell
      rw [hs, Real.sin_arcsin (by linarith) hq]
      field_simp
  exact ⟨key _ _, key _ _⟩

/-- C143: a detector that covers the hemisphere.  The error is at most `(5/2 + 2/known) ε`, except with probability at most `α`, if there are
at least `log (18/α) / (2 ε²)` trajectories. -/
theorem C143_enough_trajectories {n : ℕ} {Ω : Type} [MeasurableSpace Ω] (P : Measure Ω) [IsProbabilityMeasure P] (U : ℕ × Draw → Ω → ℝ)
    (hU : UniformDraws P U) {θ0 θ1 φ0 φ1 : ℝ} {phase : Fin (n + 1) → ℝ} {m mu mua : ℝ} (a : (nt : ℕ) → Ω → Args (nt + 1))
    (S : (nt : ℕ) → Ω → Sampling (nt + 1) (n + 1)) (d : DetArgs) (R : StreamRun U θ0 θ1 φ0 φ1 phase m mu mua a S)
    (H : ∀ nt ω, FilmRun (a nt ω) (S nt ω) d) (hfine : d.fine_roughness = 0) (hg : d.gonio = none) (hth : d.z_low < d.thickness) (nev nt : ℕ)
    (rt : Ω → Weights.RT (nt + 1)) (hrt : ∀ ω, runFilm nev (a nt ω) (S nt ω) d = .ok (rt ω))
    (t1 : Ω → Trajs 1) (ht1 : ∀ ω, simulate (nev + 1) (a 0 ω) (S 0 ω) = .ok (t1 ω)) {ε α : ℝ} (hε : 0 < ε)
    (hK : ε < Photon.meanKnown P (fun ω => simPhoton nev d (t1 ω) 0)) (hdet : d.detection_angle = Real.pi / 2) (hα : 0 < α)
    (hnt : Real.log (18 / α) / (2 * ε ^ 2) ≤ ((nt + 1 : ℕ) : ℝ)) :
    let p : Ω → Photon := fun ω => simPhoton nev d (t1 ω) 0
    P.real {ω | ¬ ∃ r t : ℝ, (rt ω).R = fin r ∧ (rt ω).T = fin t ∧
      |r - Photon.meanRefl P p| ≤ (5 / 2 + 2 / Photon.meanKnown P p) * ε ∧
      |t - Photon.meanTrans P p| ≤ (5 / 2 + 2 / Photon.meanKnown P p) * ε} ≤ α := by
  intro p
  have h := C143_error_bound P U hU a S d R H hfine hg hth nev nt rt hrt t1 ht1 hε.le hK
  obtain ⟨ω0⟩ : Nonempty Ω := by
    by_contra h
    rw [not_nonempty_iff] at h
    have := (inferInstance : IsProbabilityMeasure P).measure_univ
    rw [Set.eq_empty_of_isEmpty (Set.univ : Set Ω), measure_empty] at this
    exact zero_ne_one this
  have hm := (H 0 ω0).medium_pos
  have hs : 0 < d.n_sample := hm.trans_le (H 0 ω0).not_denser
  have htir : d.optics.n_tir = d.n_sample := by
    show Weights.nTir _ _ _ _ = _
    unfold Weights.nTir
    rw [hfine]
    cases d.n_particle <;> cases d.n_matrix <;> simp
  have hall : ∀ ω, ((p ω).escR ≠ 0 → (p ω).seenR) ∧ ((p ω).escT ≠ 0 → (p ω).seenT) := fun ω =>
    smooth_all_seen (o := d.optics.medium) htir.symm (show 0 < d.optics.n_tir by rw [htir]; exact hs) hm hdet _ _ _ _ _
  have eR : Photon.meanSeenR P p = Photon.meanEscR P p := by
    unfold Photon.meanSeenR Photon.meanEscR
    congr 1
    funext ω
    by_cases h0 : (p ω).escR = 0
    · simp [h0]
    · rw [if_pos ((hall ω).1 h0)]
  have eT : Photon.meanSeenT P p = Photon.meanEscT P p := by
    unfold Photon.meanSeenT Photon.meanEscT
    congr 1
    funext ω
    by_cases h0 : (p ω).escT = 0
    · simp [h0]
    · rw [if_pos ((hall ω).2 h0)]
  have z : ∀ s e x : ℝ, s = e → shareError s e x = 0 := fun s e x h => if_pos h
  refine le_trans (measureReal_mono ?_) (h.trans ?_)
  · intro ω hω hex
    refine hω ?_
    obtain ⟨r, t, h1, h2, h3, h4⟩ := hex
    rw [z _ _ _ eR, add_zero] at h3
    rw [z _ _ _ eT, add_zero] at h4
    exact ⟨r, t, h1, h2, h3, h4⟩
  rw [div_le_iff₀ (by positivity)] at hnt
  have h1 : Real.exp (-2 * ((nt + 1 : ℕ) : ℝ) * ε ^ 2) ≤ Real.exp (- Real.log (18 / α)) := Real.exp_le_exp.mpr (by linarith)
  rw [Real.exp_neg, Real.exp_log (by positivity), inv_div] at h1
  linarith

/-- Non-vacuity of C143: the absorbing film of C137 with 1000 trajectories; a positive `ε` is allowed, and the detector of this film covers
the hemisphere. -/
example : ∃ (Ω : Type) (_ : MeasurableSpace Ω) (P : Measure Ω) (_ : IsProbabilityMeasure P) (U : ℕ × Draw → Ω → ℝ)
    (a : (nt : ℕ) → Ω → Args (nt + 1)) (S : (nt : ℕ) → Ω → Sampling (nt + 1) 3) (rt : Ω → Weights.RT (999 + 1)) (t1 : Ω → Trajs 1) (ε : ℝ),
    UniformDraws P U ∧ StreamRun U 0 (Real.pi / 4) 0 (2 * Real.pi) (fun _ : Fin 3 => 1) 0 1 1 a S ∧
    (∀ nt ω, FilmRun (a nt ω) (S nt ω) (demoDet none)) ∧ (demoDet none).fine_roughness = 0 ∧ (demoDet none).gonio = none ∧
    (demoDet none).z_low < (demoDet none).thickness ∧ (∀ ω, runFilm 5 (a 999 ω) (S 999 ω) (demoDet none) = .ok (rt ω)) ∧
    (∀ ω, simulate (5 + 1) (a 0 ω) (S 0 ω) = .ok (t1 ω)) ∧ (demoDet none).detection_angle = Real.pi / 2 ∧ 0 < ε ∧
    ε < Photon.meanKnown P (fun ω => simPhoton 5 (demoDet none) (t1 ω) 0) := by
  obtain ⟨Ω, mΩ, P, U, hP, hU, hr⟩ := uniformDraws_in_range (ℕ × Draw)
  let a : (nt : ℕ) → Ω → Args (nt + 1) := fun nt ω =>
    ⟨1, 3 / 2, .film, 0, Real.pi / 4, none, 0, 2 * Real.pi, none, 1, none, 0, fun _ => 0, fun _ => 0, fun j => U (j, .beamTheta) ω,
      fun j => U (j, .beamPhi) ω, fun _ => 0, fun _ => 0, fun _ => 0⟩
  let S : (nt : ℕ) → Ω → Sampling (nt + 1) 3 := fun nt ω =>
    { p := fun _ => 1, min_angle := 0, draw_theta := fun i j => choiceIndex (probTheta (fun _ : Fin 3 => 1) 0) (U (j, .angle i) ω),
      rand_phi := fun i j => U (j, .azimuth i) ω, mu_scat := 1, mu_scat_mie := none,
      fine_roughness := 0, rand_step := fun i j => U (j, .step i) ω, rand_mie := fun _ => 1 / 2, mu_abs := 1 }
  have R : StreamRun U 0 (Real.pi / 4) 0 (2 * Real.pi) (fun _ : Fin 3 => 1) 0 1 1 a S := by
    constructor <;> intros <;> rfl
  have D := demo_filmRun 1 zero_le_one none
  have H : ∀ nt ω, FilmRun (a nt ω) (S nt ω) (demoDet none) := fun nt ω =>
    { nt_pos := Nat.succ_pos _, film := rfl, no_diameter := rfl, theta_len := fun l hl => (nomatch hl), phi_len := fun l hl => (nomatch hl),
      theta_range := by show (0 : ℝ) ≤ Real.pi / 4; positivity
      phi_range := by show (0 : ℝ) ≤ 2 * Real.pi; positivity
      same_medium := rfl, same_sample := rfl, medium_pos := D.medium_pos, not_denser := D.not_denser, front := D.front, back := D.back,
      particle := D.particle, matrix := D.matrix, fine := D.fine, draw_t := fun j => hr _ ω, draw_p := fun j => hr _ ω,
      phase := D.phase, min_angle := D.min_angle, phase_pos := D.phase_pos, rand_phi := fun i j => hr _ ω, mu_scat := D.mu_scat,
      mu_mie := D.mu_mie, fine_step := D.fine_step, rand_step := fun i j => hr _ ω, rand_mie := D.rand_mie, mu_abs := D.mu_abs }
  choose rt hrt _ using fun nt ω => C95_film_run_fractions (H nt ω) 5
  choose t1 ht1 using fun ω => simulate_facts (H 0 ω) 5
  have hk := C137_absorbing_known P U hU a S (demoDet none) R H rfl rfl (by norm_num [demoDet]) 5 t1 (fun ω => (ht1 ω).1) one_pos
    (by linarith [Real.pi_pos]) (by linarith [Real.pi_pos]) (fun x hx => (nomatch hx))
  exact ⟨Ω, mΩ, P, hP, U, a, S, rt 999, t1, _, hU, R, H, rfl, rfl, by norm_num [demoDet], hrt 999, fun ω => (ht1 ω).1, rfl,
    half_pos hk, half_lt_self hk⟩

end Verif.Props
