import Verif.Model.Choice
import Verif.Props.Sampling
import Verif.Props.Beam
import Mathlib.RingTheory.RootsOfUnity.Complex
import Mathlib.Analysis.SpecialFunctions.Integrals.Basic

/-!
# C105, C106: the distribution of the sampled scattering angles
-/

namespace Verif.Props

open MeasureTheory ProbabilityTheory Verif.Spec Verif.Traj XF

variable {nt : ℕ}

section choice
variable {n : ℕ}

/-- probability of an index below `k` -/
private noncomputable def below (q : Fin (n + 1) → ℝ) (k : ℕ) : ℝ := ∑ i, if i.val < k then q i else 0

private theorem below_zero (q : Fin (n + 1) → ℝ) : below q 0 = 0 := by simp [below]

private theorem below_top {q : Fin (n + 1) → ℝ} (h1 : ∑ i, q i = 1) : below q (n + 1) = 1 := by
  rw [← h1]; exact Finset.sum_congr rfl fun i _ => if_pos i.isLt

private theorem below_mono {q : Fin (n + 1) → ℝ} (h0 : ∀ i, 0 ≤ q i) {a b : ℕ} (h : a ≤ b) : below q a ≤ below q b := by
  refine Finset.sum_le_sum fun i _ => ?_
  by_cases h1 : i.val < a
  · rw [if_pos h1, if_pos (by omega)]
  · rw [if_neg h1]; split_ifs
    · exact h0 i
    · exact le_rfl

private theorem below_succ (q : Fin (n + 1) → ℝ) (k : Fin (n + 1)) : below q (k.val + 1) = below q k.val + q k := by
  have : ∀ i : Fin (n + 1), (if i.val < k.val + 1 then q i else 0) = (if i.val < k.val then q i else 0) + (if i = k then q i else 0) := by
    intro i
    rcases lt_trichotomy i.val k.val with h | h | h
    · rw [if_pos (by omega), if_pos h, if_neg (by rintro rfl; omega), add_zero]
    · have : i = k := Fin.ext h
      subst this; simp
    · rw [if_neg (by omega), if_neg (by omega), if_neg (by rintro rfl; omega), add_zero]
  simp only [below, this, Finset.sum_add_distrib, Finset.sum_ite_eq', Finset.mem_univ, if_true]

/-- the interval of uniform numbers on which index `k` is chosen -/
theorem choiceIndex_eq {q : Fin (n + 1) → ℝ} (h0 : ∀ i, 0 ≤ q i) (h1 : ∑ i, q i = 1) {u : ℝ} (k : Fin (n + 1))
    (hu : below q k.val ≤ u) (hu' : u < below q (k.val + 1)) : choiceIndex (fun i => fin (q i)) u = k := by
  classical
  have hcdf : ∀ k : Fin (n + 1), (∑ i, if i ≤ k then fin (q i) else (0 : XF)) = fin (below q (k.val + 1)) := by
    intro k
    rw [below, ← sum_fin]
    refine Finset.sum_congr rfl fun i _ => ?_
    by_cases h : i ≤ k
    · rw [if_pos h, if_pos (by have := Fin.le_def.mp h; omega)]
    · rw [if_neg h, if_neg (by have := Fin.lt_def.mp (not_le.mp h); omega)]; rfl
  have hlast : below q ((Fin.last n).val + 1) = 1 := below_top h1
  have hcount : (Finset.univ.filter fun k : Fin (n + 1) =>
      (∑ i, if i ≤ k then fin (q i) else (0 : XF)) / (∑ i, if i ≤ Fin.last n then fin (q i) else (0 : XF)) ≤ fin u).card = k.val := by
    have : (Finset.univ.filter fun k : Fin (n + 1) =>
      (∑ i, if i ≤ k then fin (q i) else (0 : XF)) / (∑ i, if i ≤ Fin.last n then fin (q i) else (0 : XF)) ≤ fin u) =
        Finset.Iio k := by
      ext i
      simp only [Finset.mem_filter, Finset.mem_univ, true_and, Finset.mem_Iio, hcdf, hlast]
      rw [fin_div _ one_ne_zero, div_one, fin_le]
      constructor
      · intro h
        by_contra hc
        have := below_mono h0 (show k.val + 1 ≤ i.val + 1 by have := Fin.le_def.mp (not_lt.mp hc); omega)
        linarith
      · intro h
        have := below_mono h0 (show i.val + 1 ≤ k.val by have := Fin.lt_def.mp h; omega)
        linarith
    rw [this, Fin.card_Iio]
  unfold choiceIndex
  simp only [hcount]
  rw [dif_pos k.isLt]

private theorem exists_cell {q : Fin (n + 1) → ℝ} (h1 : ∑ i, q i = 1) {u : ℝ} (hu : 0 ≤ u) (hu' : u < 1) :
    ∃ k : Fin (n + 1), below q k.val ≤ u ∧ u < below q (k.val + 1) := by
  classical
  have hP : ∃ m, u < below q m := ⟨n + 1, by rw [below_top h1]; exact hu'⟩
  have hm := Nat.find_spec hP
  have hmin := fun m => Nat.find_min hP (m := m)
  set m := Nat.find hP
  have hm0 : m ≠ 0 := by intro h; rw [h, below_zero] at hm; linarith
  have hle : m ≤ n + 1 := Nat.find_min' hP (by rw [below_top h1]; exact hu')
  refine ⟨⟨m - 1, by omega⟩, not_lt.mp (hmin (m - 1) (by omega)), ?_⟩
  simp only
  rw [show m - 1 + 1 = m by omega]
  exact hm

theorem choiceIndex_preimage {q : Fin (n + 1) → ℝ} (h0 : ∀ i, 0 ≤ q i) (h1 : ∑ i, q i = 1) (k : Fin (n + 1)) :
    choiceIndex (fun i => fin (q i)) ⁻¹' {k} ∩ Set.Ico 0 1 = Set.Ico (below q k.val) (below q (k.val + 1)) := by
  ext u
  simp only [Set.mem_inter_iff, Set.mem_preimage, Set.mem_singleton_iff, Set.mem_Ico]
  constructor
  · rintro ⟨h, hu, hu'⟩
    obtain ⟨k', hk, hk'⟩ := exists_cell h1 hu hu'
    rw [choiceIndex_eq h0 h1 k' hk hk'] at h
    subst h; exact ⟨hk, hk'⟩
  · rintro ⟨hk, hk'⟩
    refine ⟨choiceIndex_eq h0 h1 k hk hk', ?_, ?_⟩
    · exact (below_zero q ▸ below_mono h0 (Nat.zero_le k.val)).trans hk
    · have := below_mono h0 (show k.val + 1 ≤ n + 1 by omega)
      rw [below_top h1] at this; linarith

/-- `choiceIndex` is measurable in the uniform number (it is monotone) -/
theorem measurable_choiceIndex (q : Fin (n + 1) → XF) : Measurable (choiceIndex q) := by
  classical
  have hmono : Monotone fun u => (choiceIndex q u) := by
    intro u v huv
    have hsub : (Finset.univ.filter fun k : Fin (n + 1) =>
      (∑ i, if i ≤ k then q i else (0 : XF)) / (∑ i, if i ≤ Fin.last n then q i else (0 : XF)) ≤ fin u).card ≤
      (Finset.univ.filter fun k : Fin (n + 1) =>
      (∑ i, if i ≤ k then q i else (0 : XF)) / (∑ i, if i ≤ Fin.last n then q i else (0 : XF)) ≤ fin v).card := by
      refine Finset.card_le_card fun k => ?_
      simp only [Finset.mem_filter, Finset.mem_univ, true_and]
      intro h
      generalize (∑ i, if i ≤ k then q i else (0 : XF)) / (∑ i, if i ≤ Fin.last n then q i else (0 : XF)) = z at h
      cases z with
      | fin r => rw [fin_le] at h ⊢; linarith
      | pinf => exact h
      | ninf => exact h
      | nan => exact h
    simp only [choiceIndex]
    split_ifs with ha hb hb
    · exact Fin.le_def.mpr hsub
    · exact Fin.le_last _
    · exact absurd (lt_of_le_of_lt hsub hb) ha
    · exact le_rfl
  exact hmono.measurable

/-- NumPy's `choice` chooses index `k` with probability `q k` -/
theorem choice_law {Ω : Type} [MeasurableSpace Ω] {P : Measure Ω} {U : Ω → ℝ} (hm : Measurable U) (hU : P.map U = unif)
    {q : Fin (n + 1) → ℝ} (h0 : ∀ i, 0 ≤ q i) (h1 : ∑ i, q i = 1) (k : Fin (n + 1)) :
    P.real {ω | choiceIndex (fun i => fin (q i)) (U ω) = k} = q k := by
  have hset : {ω | choiceIndex (fun i => fin (q i)) (U ω) = k} = U ⁻¹' (choiceIndex (fun i => fin (q i)) ⁻¹' {k}) := rfl
  have hmk : MeasurableSet (choiceIndex (fun i => fin (q i)) ⁻¹' {k}) := measurable_choiceIndex _ (measurableSet_singleton k)
  rw [hset, Measure.real, ← Measure.map_apply hm hmk, hU, unif, Measure.restrict_apply hmk, choiceIndex_preimage h0 h1,
    ← Measure.real, Real.volume_real_Ico_of_le (below_mono h0 (Nat.le_succ _)), below_succ]
  ring

end choice

/-- entry `k` of a grid of `n+1` equidistant angles from `a` to `b` -/
noncomputable def gridAngle (a b : ℝ) (n : ℕ) (k : Fin (n + 1)) : ℝ := if n = 0 then a else a + k.val * ((b - a) / n)

theorem linspace_grid (a b : ℝ) (n : ℕ) (k : Fin (n + 1)) : linspace a b (n + 1) k.val = gridAngle a b n k := by
  unfold linspace gridAngle
  by_cases h : n = 0
  · subst h; simp
  · rw [if_neg (by omega), if_neg h]; push_cast; ring_nf

theorem gridAngle_inj {a b : ℝ} (hab : a < b) (n : ℕ) : Function.Injective (gridAngle a b n) := by
  intro k k' h
  unfold gridAngle at h
  by_cases hn : n = 0
  · exact Fin.ext (by omega)
  · rw [if_neg hn, if_neg hn] at h
    have hd : 0 < (b - a) / n := by
      have : 0 < (n : ℝ) := by exact_mod_cast Nat.pos_of_ne_zero hn
      exact div_pos (by linarith) this
    have := mul_right_cancel₀ hd.ne' (add_left_cancel h)
    exact Fin.ext (by exact_mod_cast this)

/-- C105, phase function of theta.  The generator delivers independent uniform numbers.  Then all sampled angles — the
scattering angle and the azimuth of every event of every trajectory — are independent; each scattering angle is the grid angle
`θ_k` with probability `p_k sin θ_k / Σ p sin θ` (the phase function weighted by solid angle), and each azimuth is uniform on
[0, 2 pi). -/
theorem C105_angle_distribution {Ω : Type} [MeasurableSpace Ω] (P : Measure Ω) [IsProbabilityMeasure P] {n : ℕ}
    (U : (ℕ × Fin nt) × Fin 2 → Ω → ℝ) (hU : UniformDraws P U) (nevents : ℕ) (p : Fin (n + 1) → ℝ) (m : ℝ)
    (hp : ∀ k, 0 ≤ p k) (hm0 : 0 ≤ m) (hm1 : m < Real.pi)
    (hpos : 0 < ∑ k, p k * Real.sin (gridAngle m Real.pi n k)) (ang : Ω → Angles nt)
    (hok : ∀ ω, sampleAnglesRng1 nevents p m (fun i j => U ((i, j), 0) ω) (fun i j => U ((i, j), 1) ω) = .ok (ang ω)) :
    iIndepFun (fun (x : (ℕ × Fin nt) × Fin 2) ω =>
      if x.2 = 0 then (ang ω).theta x.1.1 x.1.2 else (ang ω).phi x.1.1 x.1.2) P ∧
    (∀ i j k, P.real {ω | (ang ω).theta i j = gridAngle m Real.pi n k} =
      p k * Real.sin (gridAngle m Real.pi n k) / ∑ k', p k' * Real.sin (gridAngle m Real.pi n k')) ∧
    ∀ i j, P.map (fun ω => (ang ω).phi i j) = uniformOver (Set.Ico 0 (2 * Real.pi)) := by
  have hpi := Real.pi_pos
  set w : Fin (n + 1) → ℝ := fun k => p k * Real.sin (gridAngle m Real.pi n k) with hw
  have hsw : ∀ k, solidWeight p m k = w k := fun k => by rw [hw, solidWeight, linspace_grid]
  have hw0 : ∀ k, 0 ≤ w k := fun k => by
    rw [← hsw]; exact mul_nonneg (hp k) (sin_linspace_nonneg hm0 hm1.le k.isLt)
  set q : Fin (n + 1) → ℝ := fun k => w k / ∑ k', w k' with hq
  have hq0 : ∀ k, 0 ≤ q k := fun k => div_nonneg (hw0 k) hpos.le
  have hq1 : ∑ k, q k = 1 := by rw [hq, ← Finset.sum_div]; exact div_self hpos.ne'
  have hprob : probTheta p m = fun k => fin (q k) := by
    ext1 k
    rw [C71_theta_solid_angle_partial p m (by simp only [hsw]; exact hpos.ne') k]
    simp only [hsw, hq]
  have hang : ∀ ω i j, (ang ω).theta i j = gridAngle m Real.pi n (choiceIndex (fun k => fin (q k)) (U ((i, j), 0) ω)) ∧
      (ang ω).phi i j = 0 + (2 * Real.pi - 0) * U ((i, j), 1) ω := by
    intro ω i j
    have h := hok ω
    simp only [sampleAnglesRng1, sampleAngles1] at h
    split at h
    · injection h with h
      rw [← h]
      refine ⟨?_, ?_⟩
      · simp only [mkAngles, hprob, linspace_grid]
      · simp only [mkAngles]; ring
    · cases h
  have hmg : Measurable fun u : ℝ => gridAngle m Real.pi n (choiceIndex (fun k => fin (q k)) u) :=
    (measurable_of_finite (gridAngle m Real.pi n)).comp (measurable_choiceIndex _)
  refine ⟨?_, ?_, ?_⟩
  · have h := hU.indep.comp (fun x u => if x.2 = 0 then gridAngle m Real.pi n (choiceIndex (fun k => fin (q k)) u)
        else 0 + (2 * Real.pi - 0) * u) (fun x => by
          by_cases hx : x.2 = 0
          · simp only [hx, if_true]; exact hmg
          · simp only [hx, if_false]; fun_prop)
    refine h.congr fun x => Filter.Eventually.of_forall fun ω => ?_
    obtain ⟨⟨i, j⟩, b⟩ := x
    fin_cases b
    · simp only [Function.comp]; exact ((hang ω i j).1).symm
    · exact ((hang ω i j).2).symm
  · intro i j k
    have hset : {ω | (ang ω).theta i j = gridAngle m Real.pi n k} =
        {ω | choiceIndex (fun k => fin (q k)) (U ((i, j), 0) ω) = k} := by
      ext ω
      simp only [Set.mem_ofPred_eq]
      rw [(hang ω i j).1]
      exact (gridAngle_inj hm1 n).eq_iff
    rw [hset, choice_law (hU.meas _) (hU.law _) hq0 hq1]
  · intro i j
    have : (fun ω => (ang ω).phi i j) = (fun u => 0 + (2 * Real.pi - 0) * u) ∘ U ((i, j), 1) := by
      ext ω; exact (hang ω i j).2
    rw [this, ← Measure.map_map (by fun_prop) (hU.meas _), hU.law, map_uniform (by linarith)]

/-- C105, phase function of theta and phi.  The angles of different events and trajectories are independent, and an event has
the grid angles `θ_i, φ_k` with probability (marginal of phi, not weighted by solid angle) times (phase function at that phi,
weighted by solid angle and normalised). -/
theorem C105_joint_distribution {Ω : Type} [MeasurableSpace Ω] (P : Measure Ω) [IsProbabilityMeasure P] {n nphi : ℕ}
    (U : (ℕ × Fin nt) × Fin 2 → Ω → ℝ) (hU : UniformDraws P U) (nevents : ℕ) (p : Fin (n + 1) → Fin (nphi + 1) → ℝ) (m : ℝ)
    (hp : ∀ i k, 0 ≤ p i k) (hm0 : 0 ≤ m) (hm1 : m < Real.pi)
    (hpos : ∀ k, 0 < ∑ i, p i k * Real.sin (gridAngle m Real.pi n i)) (ang : Ω → Angles nt)
    (hok : ∀ ω, sampleAnglesRng2 nevents p m (fun i j => U ((i, j), 0) ω) (fun i j => U ((i, j), 1) ω) = .ok (ang ω)) :
    iIndepFun (fun (x : ℕ × Fin nt) ω => ((ang ω).theta x.1 x.2, (ang ω).phi x.1 x.2)) P ∧
    ∀ e j i k, P.real {ω | (ang ω).theta e j = gridAngle m Real.pi n i ∧ (ang ω).phi e j = gridAngle m (2 * Real.pi) nphi k} =
      (∑ i', p i' k) / (∑ k', ∑ i', p i' k') *
        (p i k * Real.sin (gridAngle m Real.pi n i) / ∑ i', p i' k * Real.sin (gridAngle m Real.pi n i')) := by
  have hpi := Real.pi_pos
  have hm2 : m < 2 * Real.pi := by linarith
  have hsin : ∀ i, 0 ≤ Real.sin (gridAngle m Real.pi n i) := fun i => by
    rw [← linspace_grid]; exact sin_linspace_nonneg hm0 hm1.le i.isLt
  have hcol : ∀ k, 0 < ∑ i, p i k := fun k => (hpos k).trans_le
    (Finset.sum_le_sum fun i _ => mul_le_of_le_one_right (hp i k) (Real.sin_le_one _))
  have htot : 0 < ∑ k, ∑ i, p i k := Finset.sum_pos (fun k _ => hcol k) Finset.univ_nonempty
  set q : Fin (nphi + 1) → ℝ := fun k => (∑ i, p i k) / ∑ k', ∑ i, p i k' with hq
  set r : Fin (nphi + 1) → Fin (n + 1) → ℝ := fun k i => p i k * Real.sin (gridAngle m Real.pi n i) /
    ∑ i', p i' k * Real.sin (gridAngle m Real.pi n i') with hr
  have hq0 : ∀ k, 0 ≤ q k := fun k => div_nonneg (hcol k).le htot.le
  have hq1 : ∑ k, q k = 1 := by rw [hq, ← Finset.sum_div]; exact div_self htot.ne'
  have hr0 : ∀ k i, 0 ≤ r k i := fun k i => div_nonneg (mul_nonneg (hp i k) (hsin i)) (hpos k).le
  have hr1 : ∀ k, ∑ i, r k i = 1 := fun k => by simp only [hr]; rw [← Finset.sum_div]; exact div_self (hpos k).ne'
  have hpq : probPhi p = fun k => fin (q k) := by ext1 k; exact fin_div _ htot.ne'
  have hpr : ∀ k, probThetaGiven p m k = fun i => fin (r k i) := by
    intro k; ext1 i
    simp only [probThetaGiven, linspace_grid]
    exact fin_div _ (hpos k).ne'
  obtain ⟨K, hK⟩ : ∃ K : ℝ → Fin (nphi + 1), K = choiceIndex fun k => fin (q k) := ⟨_, rfl⟩
  obtain ⟨T, hT⟩ : ∃ T : Fin (nphi + 1) → ℝ → Fin (n + 1), T = fun k => choiceIndex fun i => fin (r k i) := ⟨_, rfl⟩
  have hang : ∀ ω i j, (ang ω).theta i j = gridAngle m Real.pi n (T (K (U ((i, j), 1) ω)) (U ((i, j), 0) ω)) ∧
      (ang ω).phi i j = gridAngle m (2 * Real.pi) nphi (K (U ((i, j), 1) ω)) := by
    intro ω i j
    have h := hok ω
    simp only [sampleAnglesRng2, sampleAngles2] at h
    split at h
    · injection h with h
      rw [← h]
      refine ⟨?_, ?_⟩
      · simp only [mkAngles, hpq, hpr, linspace_grid, hT, hK]
      · simp only [mkAngles, hpq, linspace_grid, hK]
    · cases h
  have hmK : Measurable K := hK ▸ measurable_choiceIndex _
  have hmT : ∀ k, Measurable (T k) := fun k => hT ▸ measurable_choiceIndex _
  have hmT2 : Measurable fun x : ℝ × ℝ => T (K x.2) x.1 := by
    refine measurable_to_countable' fun i => ?_
    have : (fun x : ℝ × ℝ => T (K x.2) x.1) ⁻¹' {i} = ⋃ k, (T k ⁻¹' {i}) ×ˢ (K ⁻¹' {k}) := by
      ext ⟨a, b⟩
      simp
    rw [this]
    exact MeasurableSet.iUnion fun k => ((hmT k) (measurableSet_singleton i)).prod (hmK (measurableSet_singleton k))
  refine ⟨?_, ?_⟩
  · have h1 : Measurable fun f : Fin 2 → ℝ => (f 0, f 1) := by fun_prop
    have h2 : Measurable fun f : Fin 2 → ℝ => f 1 := by fun_prop
    have hG : Measurable fun f : Fin 2 → ℝ =>
        (gridAngle m Real.pi n (T (K (f 1)) (f 0)), gridAngle m (2 * Real.pi) nphi (K (f 1))) :=
      ((measurable_of_finite (gridAngle m Real.pi n)).comp (hmT2.comp h1)).prodMk
        ((measurable_of_finite (gridAngle m (2 * Real.pi) nphi)).comp (hmK.comp h2))
    have h := (iIndepFun_curry hU.meas hU.indep).comp (fun _ => _) (fun _ => hG)
    refine h.congr fun x => Filter.Eventually.of_forall fun ω => ?_
    simp only [Function.comp]
    rw [(hang ω x.1 x.2).1, (hang ω x.1 x.2).2]
  · intro e j i k
    have hset : {ω | (ang ω).theta e j = gridAngle m Real.pi n i ∧ (ang ω).phi e j = gridAngle m (2 * Real.pi) nphi k} =
        U ((e, j), 0) ⁻¹' (T k ⁻¹' {i}) ∩ U ((e, j), 1) ⁻¹' (K ⁻¹' {k}) := by
      ext ω
      simp only [Set.mem_ofPred_eq, Set.mem_inter_iff, Set.mem_preimage, Set.mem_singleton_iff]
      rw [(hang ω e j).1, (hang ω e j).2, (gridAngle_inj hm1 n).eq_iff, (gridAngle_inj hm2 nphi).eq_iff]
      constructor
      · rintro ⟨h1, h2⟩; rw [h2] at h1; exact ⟨h1, h2⟩
      · rintro ⟨h1, h2⟩; rw [h2]; exact ⟨h1, rfl⟩
    have hne : ((e, j), (0 : Fin 2)) ≠ ((e, j), (1 : Fin 2)) := fun h => by
      have := congrArg Prod.snd h
      simp at this
    have hind := (hU.indep.indepFun hne).measure_inter_preimage_eq_mul
      (T k ⁻¹' {i}) (K ⁻¹' {k}) ((hmT k) (measurableSet_singleton i)) (hmK (measurableSet_singleton k))
    have h1 := choice_law (hU.meas ((e, j), 0)) (hU.law _) (hr0 k) (hr1 k) i
    have h2 := choice_law (hU.meas ((e, j), 1)) (hU.law _) hq0 hq1 k
    rw [hset, Measure.real, hind, ENNReal.toReal_mul, mul_comm]
    subst hK hT
    exact congrArg₂ (· * ·) h2 h1

/-- C71 is false of the code, in terms of what is sampled: there is a phase function of theta and phi, non-negative and with
light in both azimuths, for which every event, whatever the stream of independent uniform numbers, has the direction
(theta = 90 degrees, second azimuth) with probability one half, although only one fifth of the light scattered per solid angle
goes there. -/
theorem C71_sampled_law_refuted :
    ∃ p : Fin 3 → Fin 2 → ℝ, (∀ i k, 0 ≤ p i k) ∧
      p 1 1 * Real.sin (gridAngle 0 Real.pi 2 1) / ∑ k, ∑ i, p i k * Real.sin (gridAngle 0 Real.pi 2 i) = 1 / 5 ∧
      ∀ {Ω : Type} [MeasurableSpace Ω] (P : Measure Ω) [IsProbabilityMeasure P] (nt nevents : ℕ)
        (U : (ℕ × Fin nt) × Fin 2 → Ω → ℝ), UniformDraws P U →
        ∃ ang : Ω → Angles nt,
          (∀ ω, sampleAnglesRng2 nevents p 0 (fun i j => U ((i, j), 0) ω) (fun i j => U ((i, j), 1) ω) = .ok (ang ω)) ∧
          ∀ e j, P.real {ω | (ang ω).theta e j = gridAngle 0 Real.pi 2 1 ∧ (ang ω).phi e j = gridAngle 0 (2 * Real.pi) 1 1} =
            1 / 2 := by
  have l0 : Real.sin (gridAngle 0 Real.pi 2 0) = 0 := by norm_num [gridAngle]
  have l1 : Real.sin (gridAngle 0 Real.pi 2 1) = 1 := by
    have : gridAngle 0 Real.pi 2 1 = Real.pi / 2 := by norm_num [gridAngle]
    rw [this, Real.sin_pi_div_two]
  have l2 : Real.sin (gridAngle 0 Real.pi 2 2) = 0 := by
    have : gridAngle 0 Real.pi 2 2 = Real.pi := by norm_num [gridAngle]; ring
    rw [this, Real.sin_pi]
  have hp : ∀ (i : Fin 3) (k : Fin 2), 0 ≤ (![![0, 0], ![4, 1], ![0, 3]] : Fin 3 → Fin 2 → ℝ) i k := by
    intro i k; fin_cases i <;> fin_cases k <;> norm_num
  have hpos : ∀ k : Fin 2, 0 < ∑ i : Fin 3, (![![0, 0], ![4, 1], ![0, 3]] : Fin 3 → Fin 2 → ℝ) i k *
      Real.sin (gridAngle 0 Real.pi 2 i) := by
    intro k
    fin_cases k <;> simp [Fin.sum_univ_three, l1, l2]
  refine ⟨![![0, 0], ![4, 1], ![0, 3]], hp, ?_, ?_⟩
  · simp [Fin.sum_univ_three, Fin.sum_univ_two, l1, l2]
    norm_num
  · intro Ω _ P _ nt nevents U hU
    have hsw : ∀ k : Fin 2, 0 < ∑ i : Fin 3,
        solidWeight (fun i => (![![0, 0], ![4, 1], ![0, 3]] : Fin 3 → Fin 2 → ℝ) i k) 0 i := by
      intro k
      have := hpos k
      simpa only [solidWeight, linspace_grid] using this
    have hex : ∀ ω, ∃ a, sampleAnglesRng2 (n := 2) (nphi := 1) nevents ![![0, 0], ![4, 1], ![0, 3]] 0
        (fun i j => U ((i, j), 0) ω) (fun i j => U ((i, j), 1) ω) = .ok a := fun ω =>
      let ⟨a, ha, _⟩ := C35_sample_angles_2d (num := 3) (num_phi := 2) nevents ![![0, 0], ![4, 1], ![0, 3]] 0 _ _ hp le_rfl
        Real.pi_pos.le hsw (by norm_num)
      ⟨a, ha⟩
    choose ang hang using hex
    refine ⟨ang, hang, fun e j => ?_⟩
    have := (C105_joint_distribution P U hU nevents _ 0 hp le_rfl Real.pi_pos hpos ang hang).2 e j 1 1
    rw [this]
    simp [Fin.sum_univ_three, Fin.sum_univ_two, l1, l2]
    norm_num

/-- Non-vacuity of C105: isotropic scattering on three angles, four trajectories. -/
example : ∃ (Ω : Type) (_ : MeasurableSpace Ω) (P : Measure Ω) (U : (ℕ × Fin 4) × Fin 2 → Ω → ℝ) (ang : Ω → Angles 4),
    IsProbabilityMeasure P ∧ UniformDraws P U ∧
    0 < ∑ k : Fin 3, (1 / 3 : ℝ) * Real.sin (gridAngle 0 Real.pi 2 k) ∧
    ∀ ω, sampleAnglesRng1 (n := 2) 5 (fun _ => 1 / 3) 0 (fun i j => U ((i, j), 0) ω) (fun i j => U ((i, j), 1) ω) =
      .ok (ang ω) := by
  obtain ⟨Ω, mΩ, P, W, hP, hW⟩ := uniformDraws_exist ((ℕ × Fin 4) × Fin 2)
  have hpos : 0 < ∑ k : Fin 3, solidWeight (fun _ => 1 / 3) 0 k := by
    have l1 : solidWeight (num := 3) (fun _ => 1 / 3) 0 1 = 1 / 3 := by
      have : linspace 0 Real.pi 3 ((1 : Fin 3) : ℕ) = Real.pi / 2 := by norm_num [linspace]
      rw [solidWeight, this, Real.sin_pi_div_two]; norm_num
    refine lt_of_lt_of_le ?_ (Finset.single_le_sum (f := fun i : Fin 3 => solidWeight (fun _ => 1 / 3) 0 i) (fun i _ => ?_)
      (Finset.mem_univ 1))
    · rw [l1]; norm_num
    · exact mul_nonneg (by norm_num) (sin_linspace_nonneg le_rfl Real.pi_pos.le i.isLt)
  have hok : choiceOk (probTheta (num := 3) (fun _ => 1 / 3) 0) := by
    refine choiceOk_of (w := fun i : Fin 3 => solidWeight (fun _ => 1 / 3) 0 i * 2 * Real.pi) (fun i => ?_) ?_
    · have := sin_linspace_nonneg (le_refl 0) Real.pi_pos.le i.isLt
      have h2 : 0 ≤ solidWeight (num := 3) (fun _ => 1 / 3) 0 i := mul_nonneg (by norm_num) this
      have := Real.pi_pos
      positivity
    · rw [← Finset.sum_mul, ← Finset.sum_mul]
      have := Real.pi_pos
      positivity
  refine ⟨Ω, mΩ, P, W, fun ω => _, hP, hW, ?_, fun ω => if_pos (Or.inr hok)⟩
  simpa only [solidWeight, linspace_grid] using hpos

/-! ### C106: azimuthal symmetry -/

private theorem sum_cos_grid {n : ℕ} (hn : 2 ≤ n) :
    ∑ k : Fin (n + 1), Real.cos (gridAngle 0 (2 * Real.pi) n k) = 1 := by
  have hn0 : (n : ℝ) ≠ 0 := by exact_mod_cast (by omega : n ≠ 0)
  have hg : ∀ k : Fin (n + 1), Real.cos (gridAngle 0 (2 * Real.pi) n k) =
      (Complex.exp (2 * Real.pi * Complex.I / n) ^ k.val).re := by
    intro k
    rw [← Complex.exp_nat_mul, gridAngle, if_neg (by omega)]
    have : (k.val : ℂ) * (2 * Real.pi * Complex.I / n) = ((0 + k.val * ((2 * Real.pi - 0) / n) : ℝ) : ℂ) * Complex.I := by
      push_cast; ring
    rw [this, Complex.exp_ofReal_mul_I_re]
  have hprim := Complex.isPrimitiveRoot_exp n (by omega)
  have hgeom := hprim.geom_sum_eq_zero (by omega)
  have hpow := hprim.pow_eq_one
  simp only [hg]
  rw [Fin.sum_univ_eq_sum_range (fun k => (Complex.exp (2 * Real.pi * Complex.I / n) ^ k).re), Finset.sum_range_succ, hpow,
    ← Complex.re_sum, hgeom]
  simp

/-- C106, phase function of theta.  Scattering is symmetric about the direction of flight: the mean of `cos phi` and of
`sin phi` is zero, for every phase function and every event. -/
theorem C106_azimuth_unbiased_partial {Ω : Type} [MeasurableSpace Ω] (P : Measure Ω) [IsProbabilityMeasure P] {n : ℕ}
    (U : (ℕ × Fin nt) × Fin 2 → Ω → ℝ) (hU : UniformDraws P U) (nevents : ℕ) (p : Fin (n + 1) → ℝ) (m : ℝ)
    (ang : Ω → Angles nt)
    (hok : ∀ ω, sampleAnglesRng1 nevents p m (fun i j => U ((i, j), 0) ω) (fun i j => U ((i, j), 1) ω) = .ok (ang ω))
    (e : ℕ) (j : Fin nt) :
    ∫ ω, (ang ω).cosphi e j ∂P = 0 ∧ ∫ ω, (ang ω).sinphi e j ∂P = 0 := by
  have hpi := Real.pi_pos
  have hang : ∀ ω, (ang ω).cosphi e j = Real.cos (2 * Real.pi * U ((e, j), 1) ω) ∧
      (ang ω).sinphi e j = Real.sin (2 * Real.pi * U ((e, j), 1) ω) := by
    intro ω
    have h := hok ω
    simp only [sampleAnglesRng1, sampleAngles1] at h
    split at h
    · injection h with h
      rw [← h]; exact ⟨rfl, rfl⟩
    · cases h
  simp only [hang]
  have hI : ∀ f : ℝ → ℝ, Continuous f → ∫ ω, f (2 * Real.pi * U ((e, j), 1) ω) ∂P = (2 * Real.pi)⁻¹ * ∫ x in (0 : ℝ)..(2 * Real.pi), f x := by
    intro f hf
    have h1 := integral_map (μ := P) (hU.meas ((e, j), 1)).aemeasurable (f := fun u => f (2 * Real.pi * u))
      (by fun_prop : Measurable fun u => f (2 * Real.pi * u)).aestronglyMeasurable
    rw [← h1, hU.law, unif, integral_Ico_eq_integral_Ioc, ← intervalIntegral.integral_of_le zero_le_one,
      intervalIntegral.integral_comp_mul_left f (by positivity)]
    simp
  constructor
  · rw [hI Real.cos Real.continuous_cos]; simp
  · rw [hI Real.sin Real.continuous_sin]; simp

/-- C106 is false of the code for phase functions given on a grid of theta and phi: the azimuths run from the smallest angle to
2 pi *including both ends*.  With minimum angle 0 the direction phi = 0 = 2 pi is on the grid twice, and for every phase
function that does not depend on phi, and every number of azimuths from 3 on, the scattered light leans towards it: the mean of
`cos phi` is one over the number of azimuths instead of zero. -/
theorem C106_azimuth_grid_refuted {Ω : Type} [MeasurableSpace Ω] (P : Measure Ω) [IsProbabilityMeasure P] {n nphi : ℕ}
    (hn : 2 ≤ nphi) (U : (ℕ × Fin nt) × Fin 2 → Ω → ℝ) (hU : UniformDraws P U) (nevents : ℕ) (f : Fin (n + 1) → ℝ)
    (hpos : 0 < ∑ i, f i) (ang : Ω → Angles nt)
    (hok : ∀ ω, sampleAnglesRng2 (nphi := nphi) nevents (fun i _ => f i) 0 (fun i j => U ((i, j), 0) ω)
      (fun i j => U ((i, j), 1) ω) = .ok (ang ω)) (e : ℕ) (j : Fin nt) :
    ∫ ω, (ang ω).cosphi e j ∂P = 1 / (nphi + 1) := by
  have hN : (0 : ℝ) < nphi + 1 := by positivity
  set q : Fin (nphi + 1) → ℝ := fun _ => 1 / (nphi + 1) with hq
  have hq0 : ∀ k, 0 ≤ q k := fun k => by simp only [hq]; positivity
  have hq1 : ∑ k, q k = 1 := by simp [hq]; field_simp
  have hpq : probPhi (fun (i : Fin (n + 1)) (_ : Fin (nphi + 1)) => f i) = fun k => fin (q k) := by
    ext1 k
    have : (∑ _k' : Fin (nphi + 1), ∑ i, f i) = (nphi + 1) * ∑ i, f i := by simp
    simp only [probPhi, this]
    rw [fin_div _ (by positivity), fin_inj, hq]
    field_simp
  have hang : ∀ ω, (ang ω).cosphi e j = Real.cos (gridAngle 0 (2 * Real.pi) nphi (choiceIndex (fun k => fin (q k)) (U ((e, j), 1) ω))) := by
    intro ω
    have h := hok ω
    simp only [sampleAnglesRng2, sampleAngles2] at h
    split at h
    · injection h with h
      rw [← h]
      simp only [mkAngles, hpq, linspace_grid]
    · cases h
  simp only [hang]
  obtain ⟨K, hK⟩ : ∃ K : ℝ → Fin (nphi + 1), K = choiceIndex fun k => fin (q k) := ⟨_, rfl⟩
  have hmK : Measurable K := hK ▸ measurable_choiceIndex _
  rw [← hK]
  have h1 := integral_map (μ := P) (hmK.comp (hU.meas ((e, j), 1))).aemeasurable
    (f := fun k => Real.cos (gridAngle 0 (2 * Real.pi) nphi k)) (measurable_of_finite _).aestronglyMeasurable
  simp only [Function.comp] at h1
  have hprob : IsProbabilityMeasure (P.map (K ∘ U ((e, j), 1))) :=
    Measure.isProbabilityMeasure_map (hmK.comp (hU.meas ((e, j), 1))).aemeasurable
  have h2 : ∀ k, (P.map (K ∘ U ((e, j), 1))).real {k} = 1 / (nphi + 1) := by
    intro k
    rw [map_measureReal_apply (hmK.comp (hU.meas ((e, j), 1))) (measurableSet_singleton k)]
    have := choice_law (hU.meas ((e, j), 1)) (hU.law _) hq0 hq1 k
    subst hK
    exact this
  have h3 := integral_fintype (μ := P.map (K ∘ U ((e, j), 1))) (f := fun k => Real.cos (gridAngle 0 (2 * Real.pi) nphi k))
    Integrable.of_finite
  change ∫ ω, Real.cos (gridAngle 0 (2 * Real.pi) nphi (K (U ((e, j), 1) ω))) ∂P = _
  rw [← h1]
  rw [h3]
  simp only [h2, smul_eq_mul, ← Finset.mul_sum, sum_cos_grid hn, mul_one]

/-- Non-vacuity of C106_azimuth_grid_refuted: isotropic scattering on three polar angles and five azimuths, four trajectories. -/
example : ∃ (Ω : Type) (_ : MeasurableSpace Ω) (P : Measure Ω) (U : (ℕ × Fin 4) × Fin 2 → Ω → ℝ) (ang : Ω → Angles 4),
    IsProbabilityMeasure P ∧ UniformDraws P U ∧
    ∀ ω, sampleAnglesRng2 (n := 2) (nphi := 4) 5 (fun _ _ => 1) 0 (fun i j => U ((i, j), 0) ω) (fun i j => U ((i, j), 1) ω) =
      .ok (ang ω) := by
  obtain ⟨Ω, mΩ, P, W, hP, hW⟩ := uniformDraws_exist ((ℕ × Fin 4) × Fin 2)
  have h1 : choiceOk (probPhi (num := 3) (num_phi := 5) (fun _ _ => 1)) :=
    choiceOk_of (w := fun _ : Fin 5 => ∑ _i : Fin 3, (1:ℝ)) (fun i => by positivity) (by positivity)
  have h2 : ∀ k, choiceOk (probThetaGiven (num := 3) (num_phi := 5) (fun _ _ => 1) 0 k) := by
    intro k
    refine choiceOk_of (w := fun i : Fin 3 => 1 * Real.sin (linspace 0 Real.pi 3 i)) (fun i => ?_) ?_
    · rw [one_mul]; exact sin_linspace_nonneg (le_refl 0) Real.pi_pos.le i.isLt
    · refine lt_of_lt_of_le ?_ (Finset.single_le_sum (f := fun i : Fin 3 => 1 * Real.sin (linspace 0 Real.pi 3 i)) (fun i _ => ?_)
        (Finset.mem_univ 1))
      · have : linspace 0 Real.pi 3 ((1 : Fin 3) : ℕ) = Real.pi / 2 := by norm_num [linspace]
        simp only [this, Real.sin_pi_div_two]; norm_num
      · rw [one_mul]; exact sin_linspace_nonneg (le_refl 0) Real.pi_pos.le i.isLt
  exact ⟨Ω, mΩ, P, W, fun ω => _, hP, hW, fun ω => if_pos (Or.inr ⟨h1, fun i j _ => h2 _⟩)⟩

end Verif.Props
