import Verif.Props.Persistence
import Mathlib.Probability.IdentDistrib

/-!
# C118: the distribution of single directions is that of scattering in the photon's own frame
-/

namespace Verif.Props

open MeasureTheory ProbabilityTheory Verif.Spec Verif.Traj XF

set_option linter.unusedSectionVars false

variable {nt : ℕ}

/-- the components of a vector -/
def components (v : V3) : ℝ × ℝ × ℝ := (v.x, v.y, v.z)

/-- the direction a photon starting along z has after the first `n` scattering events, if every event turns the frame the photon
carries about that frame's own axes, so that consecutive directions enclose the sampled angle (`localFrame_angle`) -/
noncomputable def trueDirection (a : Angles nt) (n : ℕ) (j : Fin nt) : V3 :=
  localFrame (history a.sintheta a.costheta a.sinphi a.cosphi j n) ⟨0, 0, 1⟩

section exch

variable {Ω E β : Type} [MeasurableSpace Ω] [MeasurableSpace E] [MeasurableSpace β] (P : Measure Ω) [IsProbabilityMeasure P]

/-- independent, identically distributed variables may be reversed -/
private theorem reverse_law (n : ℕ) (X : ℕ → Ω → E) (hX : ∀ i, Measurable (X i)) (hind : iIndepFun X P)
    (hlaw : ∀ i, P.map (X i) = P.map (X 0)) (F : (Fin n → E) → β) (hF : Measurable F) :
    P.map (fun ω => F fun i => X i.val ω) = P.map (fun ω => F fun i => X (Fin.rev i).val ω) := by
  have h1 : iIndepFun (fun i : Fin n => X i.val) P := hind.precomp (g := fun i : Fin n => i.val) Fin.val_injective
  have h2 : iIndepFun (fun i : Fin n => X (Fin.rev i).val) P :=
    hind.precomp (g := fun i : Fin n => (Fin.rev i).val) (Fin.val_injective.comp Fin.rev_injective)
  have e1 := h1.map_fun_eq_pi_map (fun i => (hX _).aemeasurable)
  have e2 := h2.map_fun_eq_pi_map (fun i => (hX _).aemeasurable)
  have e : P.map (fun ω (i : Fin n) => X i.val ω) = P.map (fun ω (i : Fin n) => X (Fin.rev i).val ω) := by
    rw [e1, e2]
    congr 1
    funext i
    rw [hlaw, hlaw (Fin.rev i).val]
  have m1 : Measurable fun ω (i : Fin n) => X i.val ω := measurable_pi_lambda _ fun i => hX _
  have m2 : Measurable fun ω (i : Fin n) => X (Fin.rev i).val ω := measurable_pi_lambda _ fun i => hX _
  have g1 := Measure.map_map hF m1 (μ := P)
  have g2 := Measure.map_map hF m2 (μ := P)
  rw [e] at g1
  exact g1.symm.trans g2

end exch

/-- turning by measurable angles is measurable -/
theorem measurable_localFrame {α : Type} [MeasurableSpace α] (l : List (α → ℝ × ℝ × ℝ × ℝ)) (hl : ∀ a ∈ l, Measurable a) :
    Measurable fun w => components (localFrame (l.map fun a => a w) ⟨0, 0, 1⟩) := by
  induction l with
  | nil => simp only [List.map_nil, localFrame]; exact measurable_const
  | cons a l ih =>
    have h1 := ih fun b hb => hl b (List.mem_cons_of_mem _ hb)
    have h2 := hl a (List.mem_cons_self ..)
    simp only [List.map_cons, localFrame, Function.comp, components, turn]
    have hx : Measurable fun w => (localFrame (l.map fun a => a w) ⟨0, 0, 1⟩).x := measurable_fst.comp h1
    have hy : Measurable fun w => (localFrame (l.map fun a => a w) ⟨0, 0, 1⟩).y := measurable_fst.comp (measurable_snd.comp h1)
    have hz : Measurable fun w => (localFrame (l.map fun a => a w) ⟨0, 0, 1⟩).z := measurable_snd.comp (measurable_snd.comp h1)
    fun_prop

/-- the abstract statement: the sines and cosines of event `i` are a fixed function of the uniform numbers of event `i` -/
private theorem law_of_rows {Ω : Type} [MeasurableSpace Ω] (P : Measure Ω) [IsProbabilityMeasure P]
    (U : (ℕ × Fin nt) × Fin 2 → Ω → ℝ) (hU : UniformDraws P U) (G : ℝ × ℝ → ℝ × ℝ × ℝ × ℝ) (hG : Measurable G)
    (ang : Ω → Angles nt)
    (hang : ∀ ω i j, ((ang ω).sintheta i j, (ang ω).costheta i j, (ang ω).sinphi i j, (ang ω).cosphi i j) =
      G (U ((i, j), 0) ω, U ((i, j), 1) ω)) (nevents : ℕ) (kn : ℕ → Fin nt → V3) (hkn : ∀ j, kn 0 j = ⟨0, 0, 1⟩)
    (e : ℕ) (he : e < nevents) :
    P.map (fun ω j => components (scatter nevents kn (ang ω).sintheta (ang ω).costheta (ang ω).sinphi (ang ω).cosphi e j)) =
      P.map (fun ω j => components (trueDirection (ang ω) e j)) := by
  let X : ℕ → Ω → (Fin nt → ℝ × ℝ) := fun i ω j => (U ((i, j), 0) ω, U ((i, j), 1) ω)
  have hX : ∀ i, Measurable (X i) := fun i => measurable_pi_lambda _ fun j => (hU.meas _).prodMk (hU.meas _)
  have hind : iIndepFun X P := by
    have hinj : Function.Injective fun x : ℕ × (Fin nt × Fin 2) => (((x.1, x.2.1), x.2.2) : (ℕ × Fin nt) × Fin 2) := by
      rintro ⟨a, b, c⟩ ⟨a', b', c'⟩ h
      simp only [Prod.mk.injEq] at h
      obtain ⟨⟨rfl, rfl⟩, rfl⟩ := h
      rfl
    have h := iIndepFun_curry (X := fun x : ℕ × (Fin nt × Fin 2) => U ((x.1, x.2.1), x.2.2)) (fun x => hU.meas _)
      (hU.indep.precomp hinj)
    exact h.comp (fun _ (f : Fin nt × Fin 2 → ℝ) (j : Fin nt) => (f (j, 0), f (j, 1))) (fun _ => by fun_prop)
  have hlaw : ∀ i, P.map (X i) = P.map (X 0) := by
    intro i
    have key : ∀ i, P.map (fun ω (y : Fin nt × Fin 2) => U ((i, y.1), y.2) ω) = Measure.pi fun _ => unif := by
      intro i
      have hinj : Function.Injective fun y : Fin nt × Fin 2 => (((i, y.1), y.2) : (ℕ × Fin nt) × Fin 2) := by
        rintro ⟨b, c⟩ ⟨b', c'⟩ h
        simp only [Prod.mk.injEq] at h
        obtain ⟨⟨-, rfl⟩, rfl⟩ := h
        rfl
      have h := (hU.indep.precomp hinj).map_fun_eq_pi_map (fun y => (hU.meas _).aemeasurable)
      rw [h]
      congr 1
      funext y
      exact hU.law _
    have hg : Measurable fun (f : Fin nt × Fin 2 → ℝ) (j : Fin nt) => (f (j, 0), f (j, 1)) := by fun_prop
    have m : ∀ i, Measurable fun ω (y : Fin nt × Fin 2) => U ((i, y.1), y.2) ω := fun i => measurable_pi_lambda _ fun y => hU.meas _
    have g := fun i => Measure.map_map hg (m i) (μ := P)
    rw [show P.map (X i) = _ from (g i).symm, show P.map (X 0) = _ from (g 0).symm, key, key]
  -- the direction as a function of the angles in order
  let F : (Fin e → Fin nt → ℝ × ℝ) → Fin nt → ℝ × ℝ × ℝ := fun w j =>
    components (localFrame ((List.finRange e).map fun i => G (w i j)) ⟨0, 0, 1⟩)
  have hF : Measurable F := by
    refine measurable_pi_lambda _ fun j => ?_
    have := measurable_localFrame ((List.finRange e).map fun i (w : Fin e → Fin nt → ℝ × ℝ) => G (w i j))
      (fun a ha => by
        obtain ⟨i, -, rfl⟩ := List.mem_map.mp ha
        exact hG.comp (by fun_prop))
    simpa only [List.map_map, Function.comp_def] using this
  have hhist : ∀ ω j, history (ang ω).sintheta (ang ω).costheta (ang ω).sinphi (ang ω).cosphi j e =
      (List.finRange e).map fun i => G (X i.val ω j) := by
    intro ω j
    have : List.range e = (List.finRange e).map fun i => i.val := by simp
    rw [history, this, List.map_map]
    refine List.map_congr_left fun i _ => ?_
    exact hang ω i.val j
  have hrev : ∀ (f : Fin e → ℝ × ℝ × ℝ × ℝ), ((List.finRange e).map f).reverse = (List.finRange e).map fun i => f (Fin.rev i) := by
    intro f
    rw [← List.map_reverse, List.finRange_reverse, List.map_map]
    rfl
  have hR := reverse_law P e X hX hind hlaw F hF
  have h1 : (fun ω j => components (trueDirection (ang ω) e j)) = fun ω => F fun i => X i.val ω := by
    funext ω j
    simp only [trueDirection, hhist, F]
  have h2 : (fun ω j => components (scatter nevents kn (ang ω).sintheta (ang ω).costheta (ang ω).sinphi (ang ω).cosphi e j)) =
      fun ω => F fun i => X (Fin.rev i).val ω := by
    funext ω j
    rw [C32_scatter_reversed_history_partial nevents kn _ _ _ _ j (hkn j) e he, hhist, hrev]
  rw [h1, h2, hR]

/-- C118, phase function of theta.  With independent uniform numbers from the generator and light incident along z, the directions of
all trajectories at any one event have, jointly, exactly the distribution they would have if every event turned each photon by the
sampled angles in the photon's own frame — although the code turns about fixed axes (C32), and although this fails for two events of
the same photon together (C107). -/
theorem C118_direction_law {Ω : Type} [MeasurableSpace Ω] (P : Measure Ω) [IsProbabilityMeasure P] {n : ℕ}
    (U : (ℕ × Fin nt) × Fin 2 → Ω → ℝ) (hU : UniformDraws P U) (nevents : ℕ) (p : Fin (n + 1) → ℝ) (m : ℝ) (ang : Ω → Angles nt)
    (hok : ∀ ω, sampleAnglesRng1 nevents p m (fun i j => U ((i, j), 0) ω) (fun i j => U ((i, j), 1) ω) = .ok (ang ω))
    (kn : ℕ → Fin nt → V3) (hkn : ∀ j, kn 0 j = ⟨0, 0, 1⟩) (e : ℕ) (he : e < nevents) :
    P.map (fun ω j => components (scatter nevents kn (ang ω).sintheta (ang ω).costheta (ang ω).sinphi (ang ω).cosphi e j)) =
      P.map (fun ω j => components (trueDirection (ang ω) e j)) := by
  have hmg : Measurable fun u : ℝ => gridAngle m Real.pi n (choiceIndex (probTheta p m) u) :=
    (measurable_of_finite (gridAngle m Real.pi n)).comp (measurable_choiceIndex _)
  refine law_of_rows P U hU (fun u => (Real.sin (gridAngle m Real.pi n (choiceIndex (probTheta p m) u.1)),
    Real.cos (gridAngle m Real.pi n (choiceIndex (probTheta p m) u.1)), Real.sin (2 * Real.pi * u.2),
    Real.cos (2 * Real.pi * u.2))) ?_ ang ?_ nevents kn hkn e he
  · have h1 : Measurable fun u : ℝ × ℝ => gridAngle m Real.pi n (choiceIndex (probTheta p m) u.1) := hmg.comp measurable_fst
    fun_prop
  · intro ω i j
    obtain ⟨h1, h2, h3, h4, h5, h6⟩ := ang_eq hok ω
    rw [h3, h4, h5, h6]
    simp only [h1, h2]

/-- C118, phase function of theta and phi: the same, whatever the distribution of the azimuths (C71, C106). -/
theorem C118_direction_law_joint {Ω : Type} [MeasurableSpace Ω] (P : Measure Ω) [IsProbabilityMeasure P] {n nphi : ℕ}
    (U : (ℕ × Fin nt) × Fin 2 → Ω → ℝ) (hU : UniformDraws P U) (nevents : ℕ) (p : Fin (n + 1) → Fin (nphi + 1) → ℝ) (m : ℝ)
    (ang : Ω → Angles nt)
    (hok : ∀ ω, sampleAnglesRng2 nevents p m (fun i j => U ((i, j), 0) ω) (fun i j => U ((i, j), 1) ω) = .ok (ang ω))
    (kn : ℕ → Fin nt → V3) (hkn : ∀ j, kn 0 j = ⟨0, 0, 1⟩) (e : ℕ) (he : e < nevents) :
    P.map (fun ω j => components (scatter nevents kn (ang ω).sintheta (ang ω).costheta (ang ω).sinphi (ang ω).cosphi e j)) =
      P.map (fun ω j => components (trueDirection (ang ω) e j)) := by
  obtain ⟨K, hK⟩ : ∃ K : ℝ → Fin (nphi + 1), K = choiceIndex (probPhi p) := ⟨_, rfl⟩
  obtain ⟨T, hT⟩ : ∃ T : Fin (nphi + 1) → ℝ → Fin (n + 1), T = fun k => choiceIndex (probThetaGiven p m k) := ⟨_, rfl⟩
  have hmK : Measurable K := hK ▸ measurable_choiceIndex _
  have hmT : ∀ k, Measurable (T k) := fun k => hT ▸ measurable_choiceIndex _
  have hmT2 : Measurable fun x : ℝ × ℝ => T (K x.2) x.1 := by
    refine measurable_to_countable' fun i => ?_
    have : (fun x : ℝ × ℝ => T (K x.2) x.1) ⁻¹' {i} = ⋃ k, (T k ⁻¹' {i}) ×ˢ (K ⁻¹' {k}) := by
      ext ⟨a, b⟩
      simp
    rw [this]
    exact MeasurableSet.iUnion fun k => ((hmT k) (measurableSet_singleton i)).prod (hmK (measurableSet_singleton k))
  refine law_of_rows P U hU (fun u => (Real.sin (gridAngle m Real.pi n (T (K u.2) u.1)),
    Real.cos (gridAngle m Real.pi n (T (K u.2) u.1)), Real.sin (gridAngle m (2 * Real.pi) nphi (K u.2)),
    Real.cos (gridAngle m (2 * Real.pi) nphi (K u.2)))) ?_ ang ?_ nevents kn hkn e he
  · have h1 : Measurable fun u : ℝ × ℝ => gridAngle m Real.pi n (T (K u.2) u.1) :=
      (measurable_of_finite (gridAngle m Real.pi n)).comp hmT2
    have h2 : Measurable fun u : ℝ × ℝ => gridAngle m (2 * Real.pi) nphi (K u.2) :=
      (measurable_of_finite (gridAngle m (2 * Real.pi) nphi)).comp (hmK.comp measurable_snd)
    fun_prop
  · intro ω i j
    have h := hok ω
    simp only [sampleAnglesRng2, sampleAngles2] at h
    split at h
    · injection h with h
      rw [← h]
      simp only [mkAngles, linspace_grid, hT, hK]
    · cases h

/-- isotropic scattering on a grid of three angles is sampled without an error -/
theorem isotropic_sampled (nevents : ℕ) (u v : ℕ → Fin nt → ℝ) :
    ∃ ang : Angles nt, sampleAnglesRng1 (n := 2) nevents (fun _ => 1) 0 u v = .ok ang := by
  have h : choiceOk (probTheta (num := 3) (fun _ => 1) 0) := by
    have hs : ∑ k : Fin 3, solidWeight (fun _ => 1) 0 k = 1 := by
      simp [Fin.sum_univ_three, solidWeight, Verif.Traj.linspace]
      norm_num
      rw [show 2 * (Real.pi / 2) = Real.pi by ring, Real.sin_pi]
    have e : ∀ k : Fin 3, probTheta (fun _ => 1) 0 k = fin (solidWeight (fun _ => 1) 0 k) := by
      intro k
      rw [C71_theta_solid_angle_partial _ _ (by rw [hs]; norm_num), hs, div_one]
    refine ⟨fun k => ?_, ?_⟩
    · rw [e, fin_le]
      exact mul_nonneg zero_le_one (sin_linspace_nonneg le_rfl Real.pi_pos.le k.isLt)
    · simp only [e]
      rw [sum_fin, hs]
  simp only [sampleAnglesRng1, sampleAngles1]
  rw [if_pos (Or.inr h)]
  exact ⟨_, rfl⟩

/-- Non-vacuity of C118: independent uniform numbers exist, and with them isotropic scattering on a grid of three angles is sampled
without an error. -/
example : ∃ (Ω : Type) (_ : MeasurableSpace Ω) (P : Measure Ω) (U : (ℕ × Fin 1) × Fin 2 → Ω → ℝ) (ang : Ω → Angles 1),
    IsProbabilityMeasure P ∧ UniformDraws P U ∧
    ∀ ω, sampleAnglesRng1 (n := 2) 5 (fun _ => 1) 0 (fun i j => U ((i, j), 0) ω) (fun i j => U ((i, j), 1) ω) = .ok (ang ω) := by
  obtain ⟨Ω, mΩ, P, U, hP, hU⟩ := uniformDraws_exist ((ℕ × Fin 1) × Fin 2)
  choose ang hang using fun ω => isotropic_sampled (nt := 1) 5 (fun i j => U ((i, j), 0) ω) (fun i j => U ((i, j), 1) ω)
  exact ⟨Ω, mΩ, P, U, ang, hP, hU, hang⟩

end Verif.Props
