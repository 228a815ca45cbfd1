import Verif.Props.DirectionLaw

/-!
# C126: light at oblique incidence, and the azimuth it comes from
-/

namespace Verif.Props

open MeasureTheory ProbabilityTheory Verif.Spec Verif.Traj XF

set_option linter.unusedSectionVars false

variable {nt : ℕ}

/-- the direction with polar angle `a` (to the axis z) and azimuth `α` -/
noncomputable def slanted (a α : ℝ) : V3 := ⟨Real.sin a * Real.cos α, Real.sin a * Real.sin α, Real.cos a⟩

/-- the direction a photon that starts with polar angle `a` and azimuth `α` has after its first `n` scattering events, if every event
turns the frame the photon carries about that frame's own axes (so that consecutive directions enclose the sampled angle,
`trueSlanted_angle`; the frame at the start is the one turned to the initial direction) -/
noncomputable def trueSlanted (a α : ℝ) (ang : Angles nt) (n : ℕ) (j : Fin nt) : V3 :=
  localFrame ((Real.sin a, Real.cos a, Real.sin α, Real.cos α) ::
    history ang.sintheta ang.costheta ang.sinphi ang.cosphi j n) ⟨0, 0, 1⟩

/-- before the first event this is the initial direction -/
theorem trueSlanted_zero (a α : ℝ) (ang : Angles nt) (j : Fin nt) : trueSlanted a α ang 0 j = slanted a α := by
  simp [trueSlanted, slanted, history, localFrame, turn]

/-- and each event turns it by the sampled angle -/
theorem trueSlanted_angle (a α : ℝ) (ang : Angles nt)
    (hc : ∀ n j, ang.sintheta n j ^ 2 + ang.costheta n j ^ 2 = 1 ∧ ang.sinphi n j ^ 2 + ang.cosphi n j ^ 2 = 1) (n : ℕ) (j : Fin nt) :
    V3.dot (trueSlanted a α ang n j) (trueSlanted a α ang (n + 1) j) = ang.costheta n j := by
  have e : trueSlanted a α ang (n + 1) j = localFrame (((Real.sin a, Real.cos a, Real.sin α, Real.cos α) ::
      history ang.sintheta ang.costheta ang.sinphi ang.cosphi j n) ++
      [(ang.sintheta n j, ang.costheta n j, ang.sinphi n j, ang.cosphi n j)]) ⟨0, 0, 1⟩ := by
    simp [trueSlanted, history, List.range_succ]
  rw [e, trueSlanted, localFrame_angle]
  intro b hb
  rcases List.mem_cons.mp hb with rfl | hb
  · exact ⟨Real.sin_sq_add_cos_sq a, Real.sin_sq_add_cos_sq α⟩
  · obtain ⟨i, -, rfl⟩ := List.mem_map.mp hb
    exact hc i j

/-! ### both z components as one function -/

/-- rotation about the axis y -/
private noncomputable def rotY (t : ℝ) (v : V3) : V3 :=
  ⟨v.x * Real.cos t + v.z * Real.sin t, v.y, -v.x * Real.sin t + v.z * Real.cos t⟩

/-- rotation about the axis z -/
private noncomputable def rotZ (f : ℝ) (v : V3) : V3 :=
  ⟨v.x * Real.cos f - v.y * Real.sin f, v.x * Real.sin f + v.y * Real.cos f, v.z⟩

/-- half turn about the axis z -/
private def half (v : V3) : V3 := ⟨-v.x, -v.y, v.z⟩

private theorem turn_rot (t f : ℝ) (v : V3) : turn (Real.sin t) (Real.cos t) (Real.sin f) (Real.cos f) v = rotZ f (rotY t v) := by
  simp only [turn, rotZ, rotY]

/-- start along z, then turn alternately about z (by `f n`) and about y (by `t n`) -/
private noncomputable def up (t f : ℕ → ℝ) : ℕ → V3
  | 0 => ⟨0, 0, 1⟩
  | n + 1 => rotY (t n) (rotZ (f n) (up t f n))

/-- the sequence with `a` in front -/
private def before (a : ℝ) (t : ℕ → ℝ) : ℕ → ℝ
  | 0 => a
  | n + 1 => t n

/-- what the code does, in these terms -/
private theorem code_up (nev : ℕ) (kn : ℕ → Fin nt → V3) (t f : ℕ → Fin nt → ℝ) (j : Fin nt) (a α : ℝ)
    (h0 : kn 0 j = slanted a α) (n : ℕ) (hn : n < nev) :
    scatter nev kn (fun i j => Real.sin (t i j)) (fun i j => Real.cos (t i j)) (fun i j => Real.sin (f i j))
      (fun i j => Real.cos (f i j)) n j =
      rotZ (before α (fun i => f i j) n) (up (before a fun i => t i j) (before 0 (before α fun i => f i j)) (n + 1)) := by
  obtain ⟨g0, g1, -⟩ := scatter_loop kn (fun i j => Real.sin (t i j)) (fun i j => Real.cos (t i j)) (fun i j => Real.sin (f i j))
      (fun i j => Real.cos (f i j)) (nev - 1)
  induction n with
  | zero =>
    refine ((congrFun g0 j).trans h0).trans ?_
    simp [slanted, up, before, rotZ, rotY]
  | succ n ih =>
    have e : scatter nev kn (fun i j => Real.sin (t i j)) (fun i j => Real.cos (t i j)) (fun i j => Real.sin (f i j))
      (fun i j => Real.cos (f i j)) (n + 1) j = _ := g1 n (by omega) j
    rw [e]
    change turn _ _ _ _ (scatter nev kn (fun i j => Real.sin (t i j)) (fun i j => Real.cos (t i j)) (fun i j => Real.sin (f i j))
      (fun i j => Real.cos (f i j)) n j) = _
    rw [ih (by omega), turn_rot]
    rfl

/-- transposing the own-frame chain -/
private theorem true_dot (l : List (ℝ × ℝ)) (u v : V3) :
    V3.dot u (localFrame (l.map fun x => (Real.sin x.1, Real.cos x.1, Real.sin x.2, Real.cos x.2)) v) =
      V3.dot (half (l.foldl (fun w x => rotY x.1 (rotZ (-x.2) w)) (half u))) v := by
  induction l generalizing u with
  | nil => simp [localFrame, half]
  | cons x l ih =>
    simp only [List.map_cons, localFrame, Function.comp, List.foldl_cons]
    have e : ∀ w, V3.dot u (turn (Real.sin x.1) (Real.cos x.1) (Real.sin x.2) (Real.cos x.2) w) =
        V3.dot (half (rotY x.1 (rotZ (-x.2) (half u)))) w := by
      intro w
      simp only [V3.dot, turn, half, rotY, rotZ, Real.sin_neg, Real.cos_neg]
      ring
    rw [e, ih]
    simp only [half, neg_neg]

private theorem foldl_up (t f : ℕ → ℝ) (n : ℕ) :
    ((List.range n).map fun i => (t i, f i)).foldl (fun w x => rotY x.1 (rotZ (-x.2) w)) ⟨0, 0, 1⟩ = up t (fun i => -f i) n := by
  induction n with
  | zero => rfl
  | succ n ih => rw [List.range_succ, List.map_append, List.foldl_append, ih]; rfl

/-- the own-frame direction, in these terms -/
private theorem true_up (t f : ℕ → Fin nt → ℝ) (j : Fin nt) (a α : ℝ) (n : ℕ) (A : Angles nt)
    (h1 : A.sintheta = fun i j => Real.sin (t i j)) (h2 : A.costheta = fun i j => Real.cos (t i j))
    (h3 : A.sinphi = fun i j => Real.sin (f i j)) (h4 : A.cosphi = fun i j => Real.cos (f i j)) :
    (trueSlanted a α A n j).z = (up (before a fun i => t i j) (before 0 fun i => -f i j) (n + 1)).z := by
  have hz : ∀ v : V3, v.z = V3.dot ⟨0, 0, 1⟩ v := by intro v; simp [V3.dot]
  have hl : (Real.sin a, Real.cos a, Real.sin α, Real.cos α) :: history A.sintheta A.costheta A.sinphi A.cosphi j n =
      ((List.range (n + 1)).map fun i => (before a (fun i => t i j) i, before α (fun i => f i j) i)).map
        fun x => (Real.sin x.1, Real.cos x.1, Real.sin x.2, Real.cos x.2) := by
    rw [List.range_succ_eq_map]
    simp [history, before, h1, h2, h3, h4, List.map_map, Function.comp_def]
  rw [trueSlanted, hl, hz, true_dot]
  have hh : half ⟨0, 0, 1⟩ = ⟨0, 0, 1⟩ := by simp [half]
  rw [hh, foldl_up]
  have hu : ∀ (g h : ℕ → ℝ), (∀ i, g (i + 1) = h (i + 1)) → ∀ m, up (before a fun i => t i j) g m = up (before a fun i => t i j) h m := by
    intro g h hgh m
    induction m with
    | zero => rfl
    | succ m ih =>
      cases m with
      | zero => simp [up, rotZ]
      | succ m => rw [up, ih, hgh m]; rfl
  rw [hu (fun i => -before α (fun i => f i j) i) (before 0 fun i => -f i j) (fun i => rfl) (n + 1)]
  simp [V3.dot, half]

private theorem measurable_up {α : Type} [MeasurableSpace α] (t f : ℕ → α → ℝ) (ht : ∀ n, Measurable (t n)) (hf : ∀ n, Measurable (f n)) (n : ℕ) :
    Measurable fun w => components (up (fun i => t i w) (fun i => f i w) n) := by
  induction n with
  | zero => simp only [up]; exact measurable_const
  | succ n ih =>
    have hx : Measurable fun w => (up (fun i => t i w) (fun i => f i w) n).x := measurable_fst.comp ih
    have hy : Measurable fun w => (up (fun i => t i w) (fun i => f i w) n).y := measurable_fst.comp (measurable_snd.comp ih)
    have hz : Measurable fun w => (up (fun i => t i w) (fun i => f i w) n).z := measurable_snd.comp (measurable_snd.comp ih)
    have h1 := ht n
    have h2 := hf n
    simp only [components, up, rotY, rotZ]
    fun_prop

/-- `1 - u` is uniform too -/
private theorem unif_reflect : unif.map (fun u => 1 - u) = unif := by
  have h : MeasurePreserving (fun u : ℝ => 1 - u) volume volume := Measure.measurePreserving_sub_left volume 1
  have h2 := h.restrict_preimage (s := Set.Ioc 0 1) measurableSet_Ioc
  have e : (fun u : ℝ => 1 - u) ⁻¹' Set.Ioc 0 1 = Set.Ico 0 1 := by
    ext u; simp only [Set.mem_preimage, Set.mem_Ioc, Set.mem_Ico]; constructor <;> rintro ⟨h1, h2⟩ <;> constructor <;> linarith
  rw [e] at h2
  rw [unif, h2.map_eq]
  exact restrict_Ioc_eq_restrict_Icc.trans restrict_Ico_eq_restrict_Icc.symm

/-- two streams of independent uniform numbers have the same law -/
private theorem same_law {Ω ι : Type} [MeasurableSpace Ω] {P : Measure Ω} [IsProbabilityMeasure P] {D D' : ι → Ω → ℝ}
    (h : UniformDraws P D) (h' : UniformDraws P D') : P.map (fun ω i => D i ω) = P.map (fun ω i => D' i ω) := by
  have e := (iIndepFun_iff_map_fun_eq_infinitePi_map h.meas).mp h.indep
  have e' := (iIndepFun_iff_map_fun_eq_infinitePi_map h'.meas).mp h'.indep
  rw [e, e']
  congr 1
  funext i
  rw [h.law, h'.law]

/-- **C126, the part that holds.**  If the azimuth of incidence is uniform over the full circle and independent of everything else (the
default of `initialize`), then for every polar angle of the light in the sample, every phase function of theta and every number of events,
the inclinations `kz` of all photons at any one event have, jointly, exactly the distribution that scattering in the photon's own frame
gives.  Missing: light from one azimuth, refuted below. -/
theorem C126_uniform_azimuth_partial {Ω : Type} [MeasurableSpace Ω] (P : Measure Ω) [IsProbabilityMeasure P] {n : ℕ}
    (A : (ℕ × Fin nt) × Fin 2 → Ω → ℝ) (V : Fin nt → Ω → ℝ) (hU : UniformDraws P (Sum.elim A V)) (nevents : ℕ)
    (p : Fin (n + 1) → ℝ) (m : ℝ) (ang : Ω → Angles nt)
    (hok : ∀ ω, sampleAnglesRng1 nevents p m (fun i j => A ((i, j), 0) ω) (fun i j => A ((i, j), 1) ω) = .ok (ang ω))
    (a : Fin nt → ℝ) (kn : Ω → ℕ → Fin nt → V3) (hkn : ∀ ω j, kn ω 0 j = slanted (a j) (2 * Real.pi * V j ω))
    (e : ℕ) (he : e < nevents) :
    P.map (fun ω j => (scatter nevents (kn ω) (ang ω).sintheta (ang ω).costheta (ang ω).sinphi (ang ω).cosphi e j).z) =
      P.map (fun ω j => (trueSlanted (a j) (2 * Real.pi * V j ω) (ang ω) e j).z) := by
  let T : ℝ → ℝ := fun u => gridAngle m Real.pi n (choiceIndex (probTheta p m) u)
  have hT : Measurable T := (measurable_of_finite (gridAngle m Real.pi n)).comp (measurable_choiceIndex _)
  let ι := (ℕ × Fin nt) ⊕ (ℕ × Fin nt)
  let D : ι → Ω → ℝ := Sum.elim (fun x => A (x, 0)) fun x => match x.1 with
    | 0 => V x.2
    | k + 1 => A ((k, x.2), 1)
  let D' : ι → Ω → ℝ := Sum.elim (fun x => A (x, 0)) fun x ω => 1 - A (x, 1) ω
  have hD : UniformDraws P D := by
    let g : ι → ((ℕ × Fin nt) × Fin 2) ⊕ Fin nt := Sum.elim (fun x => .inl (x, 0)) fun x => match x.1 with
      | 0 => .inr x.2
      | k + 1 => .inl ((k, x.2), 1)
    have hg : Function.Injective g := by
      rintro (⟨i, j⟩ | ⟨_ | i, j⟩) (⟨i', j'⟩ | ⟨_ | i', j'⟩) h <;> simp [g] at h <;> simp [h]
    have e : D = fun x => Sum.elim A V (g x) := by
      funext x
      rcases x with x | ⟨_ | i, j⟩ <;> rfl
    rw [e]
    exact ⟨fun i => hU.meas _, fun i => hU.law _, hU.indep.precomp hg⟩
  have hD' : UniformDraws P D' := by
    let g : ι → ((ℕ × Fin nt) × Fin 2) ⊕ Fin nt := Sum.elim (fun x => .inl (x, 0)) fun x => .inl (x, 1)
    have hg : Function.Injective g := by
      rintro (x | x) (x' | x') h <;> simp [g] at h <;> simp [h]
    let r : ι → ℝ → ℝ := Sum.elim (fun _ u => u) fun _ u => 1 - u
    have hr : ∀ i, Measurable (r i) := by rintro (x | x) <;> simp only [r, Sum.elim_inl, Sum.elim_inr] <;> fun_prop
    have e : D' = fun x => r x ∘ Sum.elim A V (g x) := by
      funext x
      rcases x with x | x <;> rfl
    rw [e]
    refine ⟨fun i => (hr i).comp (hU.meas _), fun i => ?_, (hU.indep.precomp hg).comp r hr⟩
    rw [← Measure.map_map (hr i) (hU.meas _), hU.law]
    rcases i with i | i
    · exact Measure.map_id
    · exact unif_reflect
  let F : (ι → ℝ) → Fin nt → ℝ := fun w j =>
    (up (before (a j) fun i => T (w (.inl (i, j)))) (before 0 fun i => 2 * Real.pi * w (.inr (i, j))) (e + 1)).z
  have hF : Measurable F := by
    refine measurable_pi_lambda _ fun j => ?_
    have h := measurable_up (α := ι → ℝ) (fun i w => before (a j) (fun i => T (w (.inl (i, j)))) i)
      (fun i w => before 0 (fun i => 2 * Real.pi * w (.inr (i, j))) i)
      (fun i => by cases i with
        | zero => exact measurable_const
        | succ i => exact hT.comp (measurable_pi_apply _))
      (fun i => by cases i with
        | zero => exact measurable_const
        | succ i => exact (measurable_pi_apply (Sum.inr (i, j))).const_mul _) (e + 1)
    exact measurable_snd.comp (measurable_snd.comp h)
  have key : ∀ E : ι → Ω → ℝ, (∀ i, Measurable (E i)) → P.map (fun ω => F fun i => E i ω) = (P.map fun ω i => E i ω).map F :=
    fun E hE => (Measure.map_map hF (measurable_pi_lambda _ hE)).symm
  have h1 : (fun ω j => (scatter nevents (kn ω) (ang ω).sintheta (ang ω).costheta (ang ω).sinphi (ang ω).cosphi e j).z) =
      fun ω => F fun i => D i ω := by
    funext ω j
    obtain ⟨g1, g2, g3, g4, g5, g6⟩ := ang_eq hok ω
    rw [g3, g4, g5, g6, code_up nevents (kn ω) _ _ j (a j) _ (hkn ω j) e he]
    simp only [rotZ, F, g1, g2]
    congr 2
    funext i
    rcases i with _ | _ | i <;> rfl
  have h2 : (fun ω j => (trueSlanted (a j) (2 * Real.pi * V j ω) (ang ω) e j).z) = fun ω => F fun i => D' i ω := by
    funext ω j
    obtain ⟨g1, g2, g3, g4, g5, g6⟩ := ang_eq hok ω
    rw [true_up _ _ j (a j) _ e (ang ω) g3 g4 g5 g6]
    simp only [F, g1, g2]
    have hu : ∀ (t f f' : ℕ → ℝ), (∀ i, Real.cos (f i) = Real.cos (f' i) ∧ Real.sin (f i) = Real.sin (f' i)) → ∀ m, up t f m = up t f' m := by
      intro t f f' h m
      induction m with
      | zero => rfl
      | succ m ih => simp only [up, ih, rotZ, (h m).1, (h m).2]
    congr 1
    refine hu _ _ _ (fun i => ?_) _
    rcases i with _ | i
    · exact ⟨rfl, rfl⟩
    · simp only [before, D', Sum.elim_inr]
      rw [show 2 * Real.pi * (1 - A ((i, j), 1) ω) = 2 * Real.pi - 2 * Real.pi * A ((i, j), 1) ω by ring, Real.cos_two_pi_sub,
        Real.sin_two_pi_sub, Real.cos_neg, Real.sin_neg]
      exact ⟨rfl, rfl⟩
  rw [h1, h2, key D hD.meas, key D' hD'.meas, same_law hD hD']

/-- a uniform azimuth has a positive cosine half of the time -/
private theorem unif_cos_pos : unif.real {u : ℝ | 0 < Real.cos (2 * Real.pi * u)} = 1 / 2 := by
  have hm : MeasurableSet {u : ℝ | 0 < Real.cos (2 * Real.pi * u)} := measurableSet_lt measurable_const (by fun_prop)
  have hset : {u : ℝ | 0 < Real.cos (2 * Real.pi * u)} ∩ Set.Ico 0 1 = Set.Ico 0 (1 / 4) ∪ Set.Ioo (3 / 4) 1 := by
    have hpi := Real.pi_pos
    ext u
    simp only [Set.mem_inter_iff, Set.mem_ofPred_eq, Set.mem_Ico, Set.mem_union, Set.mem_Ioo]
    constructor
    · rintro ⟨h, h0, h1⟩
      by_contra hc
      push Not at hc
      have h2 : 1 / 4 ≤ u := hc.1 h0
      have h3 : u ≤ 3 / 4 := by by_contra h4; exact absurd h1 (not_lt.mpr (hc.2 (not_le.mp h4)))
      have := Real.cos_nonpos_of_pi_div_two_le_of_le (x := 2 * Real.pi * u) (by nlinarith) (by nlinarith)
      linarith
    · rintro (⟨h0, h1⟩ | ⟨h0, h1⟩)
      · exact ⟨Real.cos_pos_of_mem_Ioo ⟨by nlinarith, by nlinarith⟩, h0, by linarith⟩
      · refine ⟨?_, by linarith, h1⟩
        rw [← Real.cos_two_pi_sub]
        exact Real.cos_pos_of_mem_Ioo ⟨by nlinarith, by nlinarith⟩
  rw [measureReal_def, unif, Measure.restrict_apply hm, hset, measure_union _ measurableSet_Ioo, Real.volume_Ico, Real.volume_Ioo,
    ← ENNReal.ofReal_add (by norm_num) (by norm_num), ENNReal.toReal_ofReal (by norm_num)]
  · norm_num
  · rw [Set.disjoint_left]
    rintro u ⟨-, h1⟩ ⟨h2, -⟩
    linarith

/-- **C126 is false of the code for light from one azimuth.**  After its first scattering event, light that enters with polar angle `a` and
azimuth `α` has `kz = cos theta cos a - sin theta sin a cos α`: the sampled azimuth `phi` plays no role. -/
theorem C126_first_event_refuted (nevents : ℕ) (h2 : 2 ≤ nevents) (kn : ℕ → Fin nt → V3) (t f : ℕ → Fin nt → ℝ) (j : Fin nt)
    (a α : ℝ) (h0 : kn 0 j = slanted a α) :
    (scatter nevents kn (fun i j => Real.sin (t i j)) (fun i j => Real.cos (t i j)) (fun i j => Real.sin (f i j))
      (fun i j => Real.cos (f i j)) 1 j).z = Real.cos (t 0 j) * Real.cos a - Real.sin (t 0 j) * Real.sin a * Real.cos α := by
  rw [code_up nevents kn t f j a α h0 1 (by omega)]
  simp [rotZ, up, before, rotY]
  ring

/-- **C126 is false of the code for light from one azimuth, in terms of what is sampled.**  Scattering by right angles (isotropic
scattering on a grid of three angles), light entering at any oblique angle.  Half of the light should head back to the illuminated face
after its first event, whatever the azimuth it comes from.  In the code all of it does if it comes from azimuth 0, and none of it if it
comes from azimuth pi: turning the sample, or the lamp, by half a turn changes the outcome completely. -/
theorem C126_azimuth_refuted {Ω : Type} [MeasurableSpace Ω] (P : Measure Ω) [IsProbabilityMeasure P]
    (U : (ℕ × Fin nt) × Fin 2 → Ω → ℝ) (hU : UniformDraws P U) (nevents : ℕ) (h2 : 2 ≤ nevents) (ang : Ω → Angles nt)
    (hok : ∀ ω, sampleAnglesRng1 (n := 2) nevents (fun _ => 1) 0 (fun i j => U ((i, j), 0) ω) (fun i j => U ((i, j), 1) ω) = .ok (ang ω))
    (a : ℝ) (ha0 : 0 < a) (ha1 : a < Real.pi / 2) (j : Fin nt) :
    let code := fun (α : ℝ) (ω : Ω) =>
      scatter nevents (fun _ _ => slanted a α) (ang ω).sintheta (ang ω).costheta (ang ω).sinphi (ang ω).cosphi 1 j
    P.real {ω | (code 0 ω).z < 0} = 1 ∧ P.real {ω | (code Real.pi ω).z < 0} = 0 ∧
    ∀ α, P.real {ω | (trueSlanted a α (ang ω) 1 j).z < 0} = 1 / 2 := by
  intro code
  have hg : ∀ k : Fin 3, gridAngle 0 Real.pi 2 k = k.val * (Real.pi / 2) := by
    intro k; simp [gridAngle]
  have hs : ∑ k : Fin 3, (1 : ℝ) * Real.sin (gridAngle 0 Real.pi 2 k) = 1 := by
    simp only [hg, Fin.sum_univ_three]
    simp
    rw [show 2 * (Real.pi / 2) = Real.pi by ring, Real.sin_pi]
  have hP : P.real {ω | (ang ω).theta 0 j = Real.pi / 2} = 1 := by
    have h := (C105_angle_distribution P U hU nevents (fun _ : Fin 3 => 1) 0 (fun _ => zero_le_one) le_rfl Real.pi_pos
      (by rw [hs]; norm_num) ang hok).2.1 0 j 1
    rw [hs, hg] at h
    simpa using h
  have hae : ∀ᵐ ω ∂P, (ang ω).theta 0 j = Real.pi / 2 := by
    have hmeas : MeasurableSet {ω | (ang ω).theta 0 j = Real.pi / 2} := by
      have e : {ω | (ang ω).theta 0 j = Real.pi / 2} =
          (fun ω => gridAngle 0 Real.pi 2 (choiceIndex (probTheta (fun _ : Fin 3 => 1) 0) (U ((0, j), 0) ω))) ⁻¹' {Real.pi / 2} := by
        ext ω
        rw [Set.mem_ofPred_eq, (ang_eq hok ω).1]
        rfl
      rw [e]
      have hm : Measurable fun ω => gridAngle 0 Real.pi 2 (choiceIndex (probTheta (fun _ : Fin 3 => 1) 0) (U ((0, j), 0) ω)) :=
        (measurable_of_finite (gridAngle 0 Real.pi 2)).comp ((measurable_choiceIndex _).comp (hU.meas _))
      exact hm (measurableSet_singleton _)
    refine (mem_ae_iff_prob_eq_one hmeas).mpr ?_
    have := hP
    rw [measureReal_def] at this
    exact (ENNReal.toReal_eq_one_iff _).mp this
  have hsa : 0 < Real.sin a := Real.sin_pos_of_pos_of_lt_pi ha0 (by linarith [Real.pi_pos])
  have hz : ∀ α ω, (ang ω).theta 0 j = Real.pi / 2 → (code α ω).z = -(Real.sin a * Real.cos α) := by
    intro α ω h
    obtain ⟨-, -, g3, g4, g5, g6⟩ := ang_eq hok ω
    simp only [code]
    rw [g3, g4, g5, g6, C126_first_event_refuted nevents h2 _ _ _ j a α rfl, h]
    simp
  refine ⟨?_, ?_, fun α => ?_⟩
  · have : P.real {ω | (code 0 ω).z < 0} = P.real Set.univ := by
      refine measureReal_congr ?_
      filter_upwards [hae] with ω h
      refine propext ⟨fun _ => trivial, fun _ => ?_⟩
      change (code 0 ω).z < 0
      rw [hz 0 ω h, Real.cos_zero]
      linarith
    rw [this, probReal_univ]
  · have : P.real {ω | (code Real.pi ω).z < 0} = P.real ∅ := by
      refine measureReal_congr ?_
      filter_upwards [hae] with ω h
      refine propext ⟨fun h' => ?_, fun h' => absurd h' (Set.notMem_empty ω)⟩
      have h' : (code Real.pi ω).z < 0 := h'
      rw [hz Real.pi ω h, Real.cos_pi] at h'
      exfalso
      linarith
    rw [this, measureReal_empty]
  · have : P.real {ω | (trueSlanted a α (ang ω) 1 j).z < 0} = P.real (U ((0, j), 1) ⁻¹' {u | 0 < Real.cos (2 * Real.pi * u)}) := by
      refine measureReal_congr ?_
      filter_upwards [hae] with ω h
      obtain ⟨-, g2, g3, g4, g5, g6⟩ := ang_eq hok ω
      have e : (trueSlanted a α (ang ω) 1 j).z = -(Real.sin a * Real.cos (2 * Real.pi * U ((0, j), 1) ω)) := by
        rw [true_up _ _ j a α 1 (ang ω) g3 g4 g5 g6]
        simp [up, before, rotY, rotZ, h, g2]
      refine propext ?_
      change (trueSlanted a α (ang ω) 1 j).z < 0 ↔ 0 < Real.cos (2 * Real.pi * U ((0, j), 1) ω)
      rw [e]
      constructor
      · intro h'
        by_contra hc
        nlinarith [not_lt.mp hc]
      · intro h'
        nlinarith
    rw [this, ← map_measureReal_apply (hU.meas _) (measurableSet_lt measurable_const (by fun_prop)), hU.law, unif_cos_pos]

/-- Non-vacuity of C126: independent uniform numbers for the angles and the azimuths exist, and with them isotropic scattering on a grid of
three angles is sampled without an error. -/
example : ∃ (Ω : Type) (_ : MeasurableSpace Ω) (P : Measure Ω) (A : (ℕ × Fin 1) × Fin 2 → Ω → ℝ) (V : Fin 1 → Ω → ℝ) (ang : Ω → Angles 1),
    IsProbabilityMeasure P ∧ UniformDraws P (Sum.elim A V) ∧ UniformDraws P A ∧
    ∀ ω, sampleAnglesRng1 (n := 2) 5 (fun _ => 1) 0 (fun i j => A ((i, j), 0) ω) (fun i j => A ((i, j), 1) ω) = .ok (ang ω) := by
  obtain ⟨Ω, mΩ, P, U, hP, hU⟩ := uniformDraws_exist (((ℕ × Fin 1) × Fin 2) ⊕ Fin 1)
  have e : Sum.elim (fun x => U (.inl x)) (fun x => U (.inr x)) = U := by
    funext x; rcases x with x | x <;> rfl
  have h : ∀ ω, ∃ ang : Angles 1, sampleAnglesRng1 (n := 2) 5 (fun _ => 1) 0 (fun i j => U (.inl ((i, j), 0)) ω)
      (fun i j => U (.inl ((i, j), 1)) ω) = .ok ang := fun ω => isotropic_sampled 5 _ _
  choose ang hang using h
  refine ⟨Ω, mΩ, P, fun x => U (.inl x), fun x => U (.inr x), ang, hP, e ▸ hU, ?_, hang⟩
  exact ⟨fun i => hU.meas _, fun i => hU.law _, hU.indep.precomp Sum.inl_injective⟩

end Verif.Props
