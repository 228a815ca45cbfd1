import Verif.Lemmas.Measurable
import Verif.Props.Batches
import Verif.Props.ErrorBound

/-!
# C145: statistics of sphere simulations
-/

namespace Verif.Props
noncomputable section
open Classical MeasureTheory ProbabilityTheory Filter Topology Verif.Spec Verif.Root Verif.Weights _root_.Verif.XF
open Verif.Simulation Verif.Traj Verif.SphereRun Verif.Restart Verif.Init
open Verif (XF PyErr)
open Verif.Geometry (XV)

/-- The random numbers of one photon in a sphere: two for the point at which it enters, then, for each generation `g` (0 is the first simulation,
the others are the re-runs of reflected light) and each event, those of the scattering angle, of the azimuth and of the step. -/
inductive SphDraw where
  | radius
  | circle
  | angle (g i : ℕ)
  | azimuth (g i : ℕ)
  | step (g i : ℕ)

/-- The arguments `a` of `initialize`, for `N` photons; photon `j` enters where the numbers `x j` say. -/
def streamArgs (a : Args 1) (N : ℕ) (x : ℕ → SphDraw → ℝ) : Args N :=
  { a with ux := fun _ => a.ux 0, uy := fun _ => a.uy 0, ut := fun _ => a.ut 0, up := fun _ => a.up 0, theta_a := fun _ => a.theta_a 0
           ur := fun j => x j .radius, uth := fun j => x j .circle }

/-- The parameters `S` of the sampling, for `N` photons; photon `j` is sampled with the numbers `x j`. -/
def streamSampling {n : ℕ} (S : Sampling 1 (n + 1)) (N : ℕ) (x : ℕ → SphDraw → ℝ) : Sampling N (n + 1) :=
  { S with draw_theta := fun i j => choiceIndex (probTheta S.p S.min_angle) (x j (.angle 0 i))
           rand_phi := fun i j => x j (.azimuth 0 i), rand_step := fun i j => x j (.step 0 i) }

/-- The random numbers of the re-runs, for `N` photons (the default `min_angle` of `sample_angles` is 0.01). -/
def streamDraws {n : ℕ} (S : Sampling 1 (n + 1)) (N : ℕ) (x : ℕ → SphDraw → ℝ) : ℕ → Draws N (n + 1) := fun g =>
  { draw_theta := fun i j => choiceIndex (probTheta S.p (1 / 100)) (x j (.angle g i))
    rand_phi := fun i j => x j (.azimuth g i), rand_step := fun i j => x j (.step g i), rand_mie := S.rand_mie }

/-- The run of `N` photons fed with the numbers `x`. -/
def streamRun {n : ℕ} (nev : ℕ) (a : Args 1) (S : Sampling 1 (n + 1)) (d : SphereArgs) (N : ℕ) (x : ℕ → SphDraw → ℝ) : Except PyErr (RT N) :=
  runSphere nev (streamArgs a N x) (streamSampling S N x) d (streamDraws S N x)

instance : Countable SphDraw := by
  let f : SphDraw → ℕ × ℕ × ℕ := fun q => match q with
    | .radius => (0, 0, 0)
    | .circle => (1, 0, 0)
    | .angle g i => (2, g, i)
    | .azimuth g i => (3, g, i)
    | .step g i => (4, g, i)
  refine Function.Injective.countable (f := f) ?_
  rintro (_ | _ | _ | _ | _) (_ | _ | _ | _ | _) h <;> simp_all [f]

variable {n : ℕ}

/-- numbers strictly between 0 and 1 -/
def Inner (y : SphDraw → ℝ) : Prop := ∀ q, 0 < y q ∧ y q < 1

theorem stream_domain {a : Args 1} {S : Sampling 1 (n + 1)} {d : SphereArgs} {draws : ℕ → Draws 1 (n + 1)} (H : SphereDomain a S d draws)
    {N : ℕ} (hN : 0 < N) {x : ℕ → SphDraw → ℝ} (hx : ∀ j, Inner (x j)) :
    SphereDomain (streamArgs a N x) (streamSampling S N x) d (streamDraws S N x) :=
  { nt_pos := hN, sphere := H.sphere, smooth := H.smooth, diameter := H.diameter, diameter_pos := H.diameter_pos, spot := H.spot
    same_medium := H.same_medium, same_sample := H.same_sample, medium_pos := H.medium_pos, not_denser := H.not_denser, front := H.front
    back := H.back, particle := H.particle, matrix := H.matrix, fine := H.fine, draw_r := fun j => hx j _, phase := H.phase
    min_angle := H.min_angle, phase_pos := H.phase_pos, phase_pos_rerun := H.phase_pos_rerun
    rand_phi := fun i j => ⟨(hx j _).1.le, (hx j _).2⟩, mu_scat := H.mu_scat, mu_mie := H.mu_mie, fine_step := H.fine_step
    rand_step := fun i j => ⟨(hx j _).1.le, (hx j _).2⟩, rand_mie := H.rand_mie, mu_abs := H.mu_abs
    rerun_phi := fun g i j => ⟨(hx j _).1.le, (hx j _).2⟩, rerun_step := fun g i j => ⟨(hx j _).1.le, (hx j _).2⟩
    rerun_mie := fun _ i => H.rand_mie i }

/-- numbers outside (0, 1) replaced -/
def clamp (y : SphDraw → ℝ) : SphDraw → ℝ := fun q => if 0 < y q ∧ y q < 1 then y q else 1 / 2

theorem clamp_inner (y : SphDraw → ℝ) : Inner (clamp y) := fun q => by
  unfold clamp
  split
  · assumption
  · norm_num

theorem clamp_eq {y : SphDraw → ℝ} (h : Inner y) : clamp y = y := funext fun q => if_pos (h q)

theorem clamp_meas (q : SphDraw) : Measurable fun y => clamp y q :=
  Measurable.ite ((measurableSet_lt measurable_const (measurable_pi_apply q)).inter (measurableSet_lt (measurable_pi_apply q) measurable_const))
    (measurable_pi_apply q) measurable_const

/-- reflectance and transmittance of the run of one photon, as functions of its random numbers -/
def oneR (nev : ℕ) (a : Args 1) (S : Sampling 1 (n + 1)) (d : SphereArgs) (y : SphDraw → ℝ) : ℝ :=
  match streamRun nev a S d 1 (fun _ => clamp y) with
  | .ok rt => val rt.R
  | .error _ => 0
def oneT (nev : ℕ) (a : Args 1) (S : Sampling 1 (n + 1)) (d : SphereArgs) (y : SphDraw → ℝ) : ℝ :=
  match streamRun nev a S d 1 (fun _ => clamp y) with
  | .ok rt => val rt.T
  | .error _ => 0

section Meas
variable {X : Type} [MeasurableSpace X] {nt num : ℕ}

theorem simulate_sphere_meas {D spot nm ns : ℝ} {A : X → Args nt} (hA : ∀ x, (A x).boundary = .sphere ∧ (A x).sample_diameter = some D ∧
      (A x).coarse_roughness = 0 ∧ (A x).spot_size = spot ∧ (A x).n_medium = nm ∧ (A x).n_sample = ns)
    (hr : ∀ j, Measurable fun x => (A x).ur j) (hth : ∀ j, Measurable fun x => (A x).uth j) {p : Fin num → ℝ} {ma mu fr mua : ℝ} {mie : Option ℝ}
    {S : X → Sampling nt num} (hS : ∀ x, (S x).p = p ∧ (S x).min_angle = ma ∧ (S x).mu_scat = mu ∧ (S x).mu_scat_mie = mie ∧
      (S x).fine_roughness = fr ∧ (S x).mu_abs = mua)
    (hg : DrawsMeas (fun x => (S x).draw_theta) (fun x => (S x).rand_phi) (fun x => (S x).rand_step) fun x => (S x).rand_mie)
    {nev : ℕ} {t : X → Trajs nt} (h : ∀ x, simulate nev (A x) (S x) = .ok (t x)) :
    TrajMeas fun x => (⟨(t x).position, (t x).direction, fun i j => fin ((t x).weight i j)⟩ : SphTrajs nt) := by
  have key : ∀ x, ∃ (an : Angles nt) (s : ℕ → Fin nt → XF), sampleAngles1 nev p ma (S x).draw_theta (S x).rand_phi = .ok an ∧
      sampleStep nt mu mie fr (S x).rand_step (S x).rand_mie = .ok s ∧
      (t x).direction = scatter nev (fun i j => valV (firstRow (fun j =>
        direction (Root.refraction1 (XF.arccos (negNormal (D / 2) (spherePoint (D / 2) spot ((A x).ur j) ((A x).uth j))).z) (XF.abs (fin nm))
          (XF.abs (fin ns)))
          ((negNormal (D / 2) (spherePoint (D / 2) spot ((A x).ur j) ((A x).uth j))).x /
            XF.sin (XF.arccos (negNormal (D / 2) (spherePoint (D / 2) spot ((A x).ur j) ((A x).uth j))).z))
          ((negNormal (D / 2) (spherePoint (D / 2) spot ((A x).ur j) ((A x).uth j))).y /
            XF.sin (XF.arccos (negNormal (D / 2) (spherePoint (D / 2) spot ((A x).ur j) ((A x).uth j))).z))) i j))
        an.sintheta an.costheta an.sinphi an.cosphi ∧
      (t x).position = move (fun i j => valV (firstRow (fun j => spherePoint (D / 2) spot ((A x).ur j) ((A x).uth j)) i j))
        (fun i j => val (s i j)) (t x).direction ∧
      (t x).weight = absorb (fun _ _ => 1) mua (fun i j => val (s i j)) := by
    intro x
    obtain ⟨a1, a2, a3, a4, a5, a6⟩ := hA x
    obtain ⟨s1, s2, s3, s4, s5, s6⟩ := hS x
    have h := h x
    unfold simulate at h
    rw [s1, s2, s3, s4, s5, s6] at h
    obtain ⟨p0, h0, h⟩ := bind_ok h
    obtain ⟨an, h1, h⟩ := bind_ok h
    obtain ⟨s, h2, h⟩ := bind_ok h
    injection h with h
    simp only [initializeTraj, a1, a2, enter, a3, if_true] at h0
    injection h0 with h0
    refine ⟨an, s, h1, h2, ?_⟩
    rw [← h, ← h0, a4, a5, a6]
    exact ⟨rfl, rfl, rfl⟩
  choose an s han hs e1 e2 e3 using key
  obtain ⟨m1, m2, m3, m4⟩ := angles_meas hg.theta hg.phi han
  have ms : ∀ i j, Measurable fun x => val (s x i j) := fun i j => val_meas (step_meas hg.step hg.mie hs i j)
  have hpt : ∀ j, Measurable fun x => spherePoint (D / 2) spot ((A x).ur j) ((A x).uth j) := by
    intro j
    have h1 := hr j
    have h2 := hth j
    have hrad : Measurable fun x => Real.sqrt ((A x).ur j) * spot / 2 :=
      ((Real.continuous_sqrt.measurable.comp h1).mul_const _).div_const _
    have hx : Measurable fun x => Real.sqrt ((A x).ur j) * spot / 2 * Real.cos (2 * Real.pi * (A x).uth j) :=
      hrad.mul (Real.measurable_cos.comp (h2.const_mul _))
    have hy : Measurable fun x => Real.sqrt ((A x).ur j) * spot / 2 * Real.sin (2 * Real.pi * (A x).uth j) :=
      hrad.mul (Real.measurable_sin.comp (h2.const_mul _))
    unfold spherePoint
    dsimp only
    exact XV.meas_mk (measurable_fin hx) (measurable_fin hy)
      (measurable_const.sub (sqrt_meas (measurable_fin ((measurable_const.sub (hx.mul hx)).sub (hy.mul hy)))))
  have hnn : ∀ j, Measurable fun x => negNormal (D / 2) (spherePoint (D / 2) spot ((A x).ur j) ((A x).uth j)) := by
    intro j
    have aux : ∀ {q : X → XV}, Measurable q → Measurable fun x => negNormal (D / 2) (q x) := by
      intro q hq
      unfold negNormal
      dsimp only
      fun_prop
    exact aux (hpt j)
  have hd : ∀ i j, Measurable fun x => (t x).direction i j := by
    intro i j
    simp only [e1]
    refine scatter_meas nev (fun i j => ?_) m1 m2 m3 m4 i j
    refine valV_meas ?_
    unfold firstRow
    split
    · have aux : ∀ {q : X → XV}, Measurable q → Measurable fun x => direction (Root.refraction1 (XF.arccos (q x).z) (XF.abs (fin nm))
          (XF.abs (fin ns))) ((q x).x / XF.sin (XF.arccos (q x).z)) ((q x).y / XF.sin (XF.arccos (q x).z)) := by
        intro q hq
        unfold direction
        fun_prop
      exact aux (hnn j)
    · exact measurable_const
  refine ⟨fun i j => ?_, hd, fun i j => ?_⟩
  · simp only [e2]
    refine move_meas (fun i j => ?_) ms hd i j
    refine valV_meas ?_
    unfold firstRow
    split
    · exact hpt j
    · exact measurable_const
  · simp only [e3, absorb]
    have h := cumsum_meas (s := fun x n => val (s x n j)) (fun n => ms n j) i
    exact measurable_fin ((Real.measurable_exp.comp ((h.const_mul _).neg)).const_mul _)

end Meas

theorem one_meas {a : Args 1} {S : Sampling 1 (n + 1)} {d : SphereArgs} {draws : ℕ → Draws 1 (n + 1)} (H : SphereDomain a S d draws) (nev : ℕ) :
    Measurable (oneR nev a S d) ∧ Measurable (oneT nev a S d) := by
  have hok : ∀ y : SphDraw → ℝ, ∃ t rt, simulate nev (streamArgs a 1 fun _ => clamp y) (streamSampling S 1 fun _ => clamp y) = .ok t ∧
      calcSphere d.thickness ⟨S.p, S.mu_scat, S.mu_scat_mie, S.mu_abs⟩ (streamDraws S 1 fun _ => clamp y) d.run_fresnel_traj d.max_stuck d.nested
        d.optics d.max_call_depth 0 nev ⟨t.position, t.direction, fun i j => fin (t.weight i j)⟩ = .ok rt ∧
      streamRun nev a S d 1 (fun _ => clamp y) = .ok rt := by
    intro y
    obtain ⟨rt, R, T, hrun, -⟩ := C100_sphere_run_fractions (stream_domain H one_pos fun _ => clamp_inner y) nev
    have h := hrun
    unfold runSphere at h
    obtain ⟨t, h1, h2⟩ := bind_ok h
    exact ⟨t, rt, h1, h2, hrun⟩
  choose t rt h1 h2 h3 using hok
  have ht : TrajMeas fun y => (⟨(t y).position, (t y).direction, fun i j => fin ((t y).weight i j)⟩ : SphTrajs 1) :=
    simulate_sphere_meas (D := d.thickness) (spot := a.spot_size) (nm := a.n_medium) (ns := a.n_sample) (p := S.p) (ma := S.min_angle) (mu := S.mu_scat)
      (fr := S.fine_roughness) (mua := S.mu_abs) (mie := S.mu_scat_mie) (A := fun y => streamArgs a 1 fun _ => clamp y)
      (S := fun y => streamSampling S 1 fun _ => clamp y)
      (fun y => ⟨H.sphere, H.diameter, H.smooth, rfl, rfl, rfl⟩) (fun j => clamp_meas _) (fun j => clamp_meas _)
      (fun y => ⟨rfl, rfl, rfl, rfl, rfl, rfl⟩)
      ⟨fun i j => (measurable_choiceIndex _).comp (clamp_meas _), fun i j => clamp_meas _, fun i j => clamp_meas _, fun _ => measurable_const⟩ h1
  have hm := calcSphere_meas d.thickness ⟨S.p, S.mu_scat, S.mu_scat_mie, S.mu_abs⟩ d.run_fresnel_traj d.max_stuck d.nested _ (SphDraw → ℝ) inferInstance
    (fun y => streamDraws S 1 fun _ => clamp y)
    (fun g => ⟨fun i j => (measurable_choiceIndex _).comp (clamp_meas _), fun i j => clamp_meas _, fun i j => clamp_meas _, fun _ => measurable_const⟩)
    d.optics d.max_call_depth 0 nev _ ht rt rfl h2
  have e1 : oneR nev a S d = fun y => val (rt y).R := funext fun y => by simp only [oneR, h3]
  have e2 : oneT nev a S d = fun y => val (rt y).T := funext fun y => by simp only [oneT, h3]
  rw [e1, e2]
  exact ⟨val_meas hm.1, val_meas hm.2⟩

/-- almost surely all the draws are inside (0, 1) -/
theorem draws_inner {Ω : Type} [MeasurableSpace Ω] {P : Measure Ω} {U : ℕ × SphDraw → Ω → ℝ} (hU : UniformDraws P U) :
    ∀ᵐ ω ∂P, ∀ j, Inner (group U j ω) := by
  have h : ∀ᵐ ω ∂P, ∀ i, 0 < U i ω ∧ U i ω < 1 := by
    rw [ae_all_iff]
    intro i
    have hu : ∀ᵐ u ∂unif, 0 < u ∧ u < 1 := by
      unfold unif
      have h0 : ∀ᵐ u ∂(volume.restrict (Set.Ico (0 : ℝ) 1)), u ≠ 0 := ae_restrict_of_ae (by
        rw [ae_iff]
        simp)
      filter_upwards [ae_restrict_mem measurableSet_Ico, h0] with u hu h0
      exact ⟨lt_of_le_of_ne hu.1 (Ne.symm h0), hu.2⟩
    rw [← hU.law i] at hu
    exact ae_of_ae_map (hU.meas i).aemeasurable hu
  filter_upwards [h] with ω hω
  exact fun j q => hω (j, q)

theorem one_eq {a : Args 1} {S : Sampling 1 (n + 1)} {d : SphereArgs} {draws : ℕ → Draws 1 (n + 1)} (H : SphereDomain a S d draws)
    (hdet : d.detection_angle = Real.pi / 2)
    (hfine : d.fine_roughness = 0 ∨ ∀ p m, d.n_particle = some p → d.n_matrix = some m → d.n_sample ≤ max p m)
    (hmie : S.mu_scat_mie = none ∨ S.fine_roughness = 0) (hrun : d.run_fresnel_traj = false ∨ d.max_stuck < 0) (nev N : ℕ)
    {x : ℕ → SphDraw → ℝ} (hx : ∀ j, Inner (x j)) :
    ∃ rt, streamRun nev a S d (N + 1) x = .ok rt ∧ rt.R = fin ((∑ j : Fin (N + 1), oneR nev a S d (x j)) / ((N + 1 : ℕ) : ℝ)) ∧
      rt.T = fin ((∑ j : Fin (N + 1), oneT nev a S d (x j)) / ((N + 1 : ℕ) : ℝ)) := by
  obtain ⟨fR, fT, -, h⟩ := C144_sphere_photons (stream_domain H (Nat.succ_pos N) hx) hdet hfine hmie hrun nev
  obtain ⟨rt, h1, -, -, h2, h3⟩ := h (Nat.succ_pos N) id
  have e : ∀ j : Fin (N + 1), oneR nev a S d (x j) = fR j ∧ oneT nev a S d (x j) = fT j := by
    intro j
    obtain ⟨r1, k1, -, -, k2, k3⟩ := h one_pos (fun _ => j)
    have : streamRun nev a S d 1 (fun _ => clamp (x j)) = .ok r1 := by
      rw [clamp_eq (hx j)]
      exact k1
    unfold oneR oneT
    rw [this]
    dsimp only
    rw [k2, k3]
    simp [val]
  refine ⟨rt, h1, ?_, ?_⟩
  · rw [h2]; simp only [e, id]
  · rw [h3]; simp only [e, id]

theorem one_fraction {a : Args 1} {S : Sampling 1 (n + 1)} {d : SphereArgs} {draws : ℕ → Draws 1 (n + 1)} (H : SphereDomain a S d draws)
    (nev : ℕ) (y : SphDraw → ℝ) : 0 ≤ oneR nev a S d y ∧ 0 ≤ oneT nev a S d y ∧ oneR nev a S d y + oneT nev a S d y ≤ 1 := by
  obtain ⟨rt, R, T, hrun, hR, hT, h0, h1, hle⟩ := C100_sphere_run_fractions (stream_domain H one_pos fun _ => clamp_inner y) nev
  have : streamRun nev a S d 1 (fun _ => clamp y) = .ok rt := hrun
  unfold oneR oneT
  rw [this]
  dsimp only
  rw [hR, hT]
  exact ⟨h0, h1, hle⟩

/-- C145.  **Statistics of sphere simulations.**  A sphere seen by a detector that covers the hemispheres is simulated with more and more photons, fed with
independent uniform numbers; light reflected back into the sphere is either shared out (`run_fresnel_traj=False`) or always run again
(`max_stuck` negative).  With probability one all the runs succeed.  Reflectance and transmittance have the same expectation whatever the number of
photons: the expected reflectance `ρ` and transmittance `τ` of a single photon, which are fractions with sum at most 1, exactly 1 without
absorption.  With `N` photons they are off by `ε` or more with probability at most `2 exp(-2 N ε²)`, whatever the sphere, and they converge to `ρ`
and `τ` with probability one. -/
theorem C145_sphere_statistics {Ω : Type} [MeasurableSpace Ω] (P : Measure Ω) [IsProbabilityMeasure P] (U : ℕ × SphDraw → Ω → ℝ)
    (hU : UniformDraws P U) {a : Args 1} {S : Sampling 1 (n + 1)} {d : SphereArgs} {draws : ℕ → Draws 1 (n + 1)} (H : SphereDomain a S d draws)
    (hdet : d.detection_angle = Real.pi / 2)
    (hfine : d.fine_roughness = 0 ∨ ∀ p m, d.n_particle = some p → d.n_matrix = some m → d.n_sample ≤ max p m)
    (hmie : S.mu_scat_mie = none ∨ S.fine_roughness = 0) (hrun : d.run_fresnel_traj = false ∨ d.max_stuck < 0) (nev : ℕ) :
    ∃ (r t : ℕ → Ω → ℝ) (ρ τ : ℝ), (0 ≤ ρ ∧ 0 ≤ τ ∧ ρ + τ ≤ 1 ∧ (0 < nev → S.mu_abs = 0 → ρ + τ = 1)) ∧
      (∀ᵐ ω ∂P, ∀ N, ∃ rt, streamRun nev a S d (N + 1) (fun j q => U (j, q) ω) = .ok rt ∧ rt.R = fin (r N ω) ∧ rt.T = fin (t N ω)) ∧
      (∀ N, Integrable (r N) P ∧ Integrable (t N) P ∧ ∫ ω, r N ω ∂P = ρ ∧ ∫ ω, t N ω ∂P = τ) ∧
      (∀ N ε, 0 ≤ ε → P.real {ω | ε ≤ |r N ω - ρ|} ≤ 2 * Real.exp (-2 * ((N + 1 : ℕ) : ℝ) * ε ^ 2) ∧
        P.real {ω | ε ≤ |t N ω - τ|} ≤ 2 * Real.exp (-2 * ((N + 1 : ℕ) : ℝ) * ε ^ 2)) ∧
      (∀ᵐ ω ∂P, Tendsto (fun N => r N ω) atTop (𝓝 ρ) ∧ Tendsto (fun N => t N ω) atTop (𝓝 τ)) := by
  obtain ⟨mR, mT⟩ := one_meas H nev
  have hfr := fun y => one_fraction H nev y
  have bR : ∀ j ω, IsFraction (oneR nev a S d (group U j ω)) := fun j ω => ⟨(hfr _).1, by linarith [(hfr (group U j ω)).2.1, (hfr (group U j ω)).2.2]⟩
  have bT : ∀ j ω, IsFraction (oneT nev a S d (group U j ω)) := fun j ω => ⟨(hfr _).2.1, by linarith [(hfr (group U j ω)).1, (hfr (group U j ω)).2.2]⟩
  have iR : ∀ j, Integrable (fun ω => oneR nev a S d (group U j ω)) P := fun j =>
    Integrable.of_bound (mR.comp (group_meas hU j)).aestronglyMeasurable 1 (Eventually.of_forall fun ω => by
      rw [Real.norm_eq_abs, abs_of_nonneg (bR j ω).1]; exact (bR j ω).2)
  have iT : ∀ j, Integrable (fun ω => oneT nev a S d (group U j ω)) P := fun j =>
    Integrable.of_bound (mT.comp (group_meas hU j)).aestronglyMeasurable 1 (Eventually.of_forall fun ω => by
      rw [Real.norm_eq_abs, abs_of_nonneg (bT j ω).1]; exact (bT j ω).2)
  have mean : ∀ {F : (SphDraw → ℝ) → ℝ}, Measurable F → (∀ j, Integrable (fun ω => F (group U j ω)) P) → ∀ N : ℕ,
      Integrable (fun ω => (∑ j : Fin (N + 1), F (group U j ω)) / ((N + 1 : ℕ) : ℝ)) P ∧
      ∫ ω, (∑ j : Fin (N + 1), F (group U j ω)) / ((N + 1 : ℕ) : ℝ) ∂P = ∫ ω, F (group U 0 ω) ∂P := by
    intro F hF hi N
    refine ⟨(integrable_finsetSum Finset.univ fun (j : Fin (N + 1)) _ => hi j).div_const _, ?_⟩
    rw [integral_div, integral_finsetSum _ fun (j : Fin (N + 1)) _ => hi j, Finset.sum_congr rfl fun (j : Fin (N + 1)) _ => group_mean hU hF j]
    rw [Finset.sum_const, Finset.card_univ, Fintype.card_fin, nsmul_eq_mul]
    have : ((N + 1 : ℕ) : ℝ) ≠ 0 := by positivity
    field_simp
  refine ⟨fun N ω => (∑ j : Fin (N + 1), oneR nev a S d (group U j ω)) / ((N + 1 : ℕ) : ℝ),
    fun N ω => (∑ j : Fin (N + 1), oneT nev a S d (group U j ω)) / ((N + 1 : ℕ) : ℝ),
    ∫ ω, oneR nev a S d (group U 0 ω) ∂P, ∫ ω, oneT nev a S d (group U 0 ω) ∂P, ⟨?_, ?_, ?_, ?_⟩, ?_, ?_, ?_, ?_⟩
  · exact integral_nonneg fun ω => (bR 0 ω).1
  · exact integral_nonneg fun ω => (bT 0 ω).1
  · rw [← integral_add (iR 0) (iT 0)]
    calc ∫ ω, (oneR nev a S d (group U 0 ω) + oneT nev a S d (group U 0 ω)) ∂P ≤ ∫ _, (1 : ℝ) ∂P :=
          integral_mono ((iR 0).add (iT 0)) (integrable_const _) fun ω => (hfr _).2.2
      _ = 1 := by simp
  · intro hnev hmu
    rw [← integral_add (iR 0) (iT 0)]
    have e : ∀ y, oneR nev a S d y + oneT nev a S d y = 1 := by
      intro y
      obtain ⟨rt, R, T, hrun, hR, hT, -, -, hle⟩ := C100_sphere_run_lossless (stream_domain H one_pos fun _ => clamp_inner y) hnev hmu hdet hfine
      have : streamRun nev a S d 1 (fun _ => clamp y) = .ok rt := hrun
      unfold oneR oneT
      rw [this]
      dsimp only
      rw [hR, hT]
      exact hle
    simp [e]
  · filter_upwards [draws_inner hU] with ω hω
    intro N
    exact one_eq H hdet hfine hmie hrun nev N (x := fun j => group U j ω) hω
  · intro N
    exact ⟨(mean mR iR N).1, (mean mT iT N).1, (mean mR iR N).2, (mean mT iT N).2⟩
  · intro N ε hε
    exact ⟨hoeffding_group hU mR bR N hε, hoeffding_group hU mT bT N hε⟩
  · filter_upwards [group_average hU mR (C := 1) fun ω => by rw [abs_of_nonneg (bR 0 ω).1]; exact (bR 0 ω).2,
      group_average hU mT (C := 1) fun ω => by rw [abs_of_nonneg (bT 0 ω).1]; exact (bT 0 ω).2] with ω h1 h2
    exact ⟨h1, h2⟩

/-- Non-vacuity of C145: a sphere of diameter 2 and index 3/2 in air, isotropic scattering, absorption, with light reflected back shared out and with
all of it run again. -/
example (run : Bool) : ∃ (Ω : Type) (_ : MeasurableSpace Ω) (P : Measure Ω) (_ : IsProbabilityMeasure P) (U : ℕ × SphDraw → Ω → ℝ) (a : Args 1)
    (S : Sampling 1 3) (d : SphereArgs) (draws : ℕ → Draws 1 3), UniformDraws P U ∧ SphereDomain a S d draws ∧
    d.detection_angle = Real.pi / 2 ∧ d.fine_roughness = 0 ∧ S.mu_scat_mie = none ∧ d.run_fresnel_traj = run ∧ d.max_stuck < 0 := by
  obtain ⟨Ω, mΩ, P, U, hP, hU⟩ := uniformDraws_exist (ℕ × SphDraw)
  have h := demo_sphereRun 1 zero_le_one
  exact ⟨Ω, mΩ, P, hP, U, _, _, ⟨1, 3 / 2, 2, none, none, Real.pi / 2, 0, none, none, run, 20, -1⟩, _, hU,
    { h with diameter := h.diameter, diameter_pos := h.diameter_pos, spot := h.spot, same_medium := h.same_medium, same_sample := h.same_sample
             medium_pos := h.medium_pos, not_denser := h.not_denser, front := h.front, back := h.back, particle := h.particle, matrix := h.matrix
             fine := h.fine }, rfl, rfl, rfl, rfl, by norm_num⟩

end
end Verif.Props
