import Verif.Props.SphereGeo
import Verif.Props.Simulation

/-!
# C100: a complete simulation of a sphere, from `initialize` to `calc_refl_trans` with all generations of re-run photons
-/

namespace Verif.Props
open Verif.SphereRun Verif.Simulation Verif.Spec Verif.XF Verif.Geometry Verif.Init Verif.Traj Verif.Weights Verif.Fresnel
open Verif (XF PyErr)
open Verif.Geometry (XV)

variable {nt num : ℕ}

/-- The documented domain of a simulation of a smooth sphere: the illuminating spot is not larger than the sphere and the
medium not denser than the sample; draws in [0,1) (not exactly 0 for the start points: see `C37_sphere_pole_refuted`),
non-negative phase function that does not vanish on the grid of the user's call and on that of the re-runs (which always
start at angle 0.01), positive scattering and non-negative absorption coefficients, positive indices of cover slips and
constituents, fine roughness in [0,1]. -/
structure SphereDomain (a : Args nt) (S : Sampling nt num) (d : SphereArgs) (draws : ℕ → Draws nt num) : Prop where
  nt_pos : 0 < nt
  sphere : a.boundary = .sphere
  smooth : a.coarse_roughness = 0
  diameter : a.sample_diameter = some d.thickness
  diameter_pos : 0 < d.thickness
  spot : 0 < a.spot_size ∧ a.spot_size ≤ d.thickness
  same_medium : a.n_medium = d.n_medium
  same_sample : a.n_sample = d.n_sample
  medium_pos : 0 < d.n_medium
  not_denser : d.n_medium ≤ d.n_sample
  front : ∀ x, d.n_front = some x → 0 < x
  back : ∀ x, d.n_back = some x → 0 < x
  particle : ∀ x, d.n_particle = some x → 0 < x
  matrix : ∀ x, d.n_matrix = some x → 0 < x
  fine : 0 ≤ d.fine_roughness ∧ d.fine_roughness ≤ 1
  draw_r : ∀ j, 0 < a.ur j ∧ a.ur j < 1
  phase : ∀ i, 0 ≤ S.p i
  min_angle : 0 ≤ S.min_angle ∧ S.min_angle ≤ Real.pi
  phase_pos : 0 < ∑ i, solidWeight S.p S.min_angle i
  phase_pos_rerun : 0 < ∑ i, solidWeight S.p (1 / 100) i
  rand_phi : ∀ i j, 0 ≤ S.rand_phi i j ∧ S.rand_phi i j < 1
  mu_scat : 0 < S.mu_scat
  mu_mie : ∀ m ∈ S.mu_scat_mie, 0 < m
  fine_step : 0 ≤ S.fine_roughness ∧ S.fine_roughness ≤ 1
  rand_step : ∀ i j, 0 ≤ S.rand_step i j ∧ S.rand_step i j < 1
  rand_mie : ∀ i, 0 ≤ S.rand_mie i ∧ S.rand_mie i < 1
  mu_abs : 0 ≤ S.mu_abs
  rerun_phi : ∀ d' i j, 0 ≤ (draws d').rand_phi i j ∧ (draws d').rand_phi i j < 1
  rerun_step : ∀ d' i j, 0 ≤ (draws d').rand_step i j ∧ (draws d').rand_step i j < 1
  rerun_mie : ∀ d' i, 0 ≤ (draws d').rand_mie i ∧ (draws d').rand_mie i < 1

/-- steps are non-negative numbers -/
theorem steps_real {mu fr : ℝ} {mie : Option ℝ} {rand : ℕ → Fin nt → ℝ} {rm : ℕ → ℝ} (hmu : 0 < mu) (hm : ∀ m ∈ mie, 0 < m)
    (hf : 0 ≤ fr ∧ fr ≤ 1) (hr : ∀ i j, 0 ≤ rand i j ∧ rand i j < 1) (hrm : ∀ i, 0 ≤ rm i ∧ rm i < 1) :
    ∃ s : ℕ → Fin nt → ℝ, sampleStep nt mu mie fr rand rm = .ok (fun i j => fin (s i j)) ∧ ∀ i j, 0 ≤ s i j := by
  obtain ⟨step, hstep⟩ := (C34_sample_step_error mu mie fr rand rm).2 hf
  have hv := C34_sample_step_values mu mie fr rand rm hmu hm hr hrm step hstep
  have key : ∀ i j, ∃ r : ℝ, step i j = fin r ∧ 0 ≤ r := by
    intro i j
    by_cases h : mie = none ∨ i ≠ 0 ∨ pyRound (nt * fr) ≤ j.val
    · obtain ⟨r, h1, h2, h3⟩ := (hv i j).2 h
      exact ⟨r, h1, h2⟩
    · push Not at h
      obtain ⟨m, hm⟩ := Option.ne_none_iff_exists'.mp h.1
      obtain ⟨r, h1, h2, h3⟩ := (hv i j).1 m hm h.2.1 h.2.2
      exact ⟨r, h1, h2⟩
  choose s h1 h2 using key
  refine ⟨s, ?_, h2⟩
  rw [hstep]
  congr 1
  funext i j
  exact h1 i j

/-- The photons of one generation: they start inside (or on) the sphere, with weights `ω` that are attenuated along the way
by factors in [0,1], which are 1 without absorption. -/
structure GenOK (D mu_abs : ℝ) (ω : Fin nt → ℝ) (t : SphTrajs nt) : Prop where
  inside : ∀ j, (V3.sub (t.position 0 j) ⟨0, 0, D / 2⟩).normSq ≤ (D / 2) * (D / 2)
  weight : ∃ att : ℕ → Fin nt → ℝ, (∀ i j, t.weight i j = fin (ω j * att i j)) ∧ (∀ i j, 0 ≤ att i j ∧ att i j ≤ 1) ∧
    (mu_abs = 0 → ∀ i j, att i j = 1)

theorem att_facts {mu : ℝ} (hmu : 0 ≤ mu) {s : ℕ → Fin nt → ℝ} (hs : ∀ i j, 0 ≤ s i j) :
    (∀ i j, 0 ≤ Real.exp (-(mu * cumsum (fun n => s n j) i)) ∧ Real.exp (-(mu * cumsum (fun n => s n j) i)) ≤ 1) ∧
    (mu = 0 → ∀ i j, Real.exp (-(mu * cumsum (fun n => s n j) i)) = 1) := by
  refine ⟨fun i j => ⟨(Real.exp_pos _).le, ?_⟩, ?_⟩
  · rw [Real.exp_le_one_iff]
    have := cumsum_nonneg (a := fun n => s n j) (fun n => hs n j) i
    have := mul_nonneg hmu this
    linarith
  · rintro rfl i j
    simp

/-- the next generation -/
theorem rerun_ok {a : Args nt} {S : Sampling nt num} {d : SphereArgs} {draws : ℕ → Draws nt num}
    (H : SphereDomain a S d draws) (nevents depth : ℕ) {start : Fin nt → XV × XV} {ω : Fin nt → ℝ}
    (hstart : ∀ j, ∃ p : V3, (start j).1 = ofV3 p ∧
      (V3.sub p ⟨0, 0, d.thickness / 2⟩).normSq ≤ (d.thickness / 2) * (d.thickness / 2)) :
    ∃ t, rerun nevents ⟨S.p, S.mu_scat, S.mu_scat_mie, S.mu_abs⟩ (draws depth) start (fun j => fin (ω j)) = .ok t ∧
      GenOK d.thickness S.mu_abs ω t := by
  obtain ⟨ang, hang, _, _, hcons⟩ := C35_sample_angles_1d (nt := nt) nevents S.p (1 / 100) (draws depth).draw_theta
    (draws depth).rand_phi H.phase (by norm_num) (by linarith [Real.two_le_pi]) H.phase_pos_rerun (H.rerun_phi depth)
  obtain ⟨s, hs, hs0⟩ := steps_real (nt := nt) H.mu_scat H.mu_mie ⟨le_rfl, zero_le_one⟩ (H.rerun_step depth) (H.rerun_mie depth)
  have hval : ∀ r : ℝ, val (fin r) = r := fun _ => rfl
  have hrun : rerun nevents ⟨S.p, S.mu_scat, S.mu_scat_mie, S.mu_abs⟩ (draws depth) start (fun j => fin (ω j)) = .ok
      { position := move (fun i j => if i = 0 then valV (start j).1 else V3.zero) s
          (scatter nevents (fun i j => if i = 0 then valV (start j).2 else V3.zero) ang.sintheta ang.costheta ang.sinphi ang.cosphi)
        direction := scatter nevents (fun i j => if i = 0 then valV (start j).2 else V3.zero) ang.sintheta ang.costheta ang.sinphi
            ang.cosphi
        weight := fun i j => fin (ω j) * fin (Real.exp (-(S.mu_abs * cumsum (fun n => s n j) i))) } := by
    simp only [rerun, hang, hs, bind, Except.bind, pure, Except.pure, hval]
  refine ⟨_, hrun, ?_, ?_⟩
  · intro j
    dsimp only
    rw [(C33_move_steps _ s _ 0 j).1]
    obtain ⟨p, hp, hp'⟩ := hstart j
    rw [if_pos rfl, hp]
    exact hp'
  · obtain ⟨h1, h2⟩ := att_facts H.mu_abs hs0
    exact ⟨_, fun i j => by simp only [fin_mul], h1, h2⟩

/-- the first generation -/
theorem sphere_simulate {a : Args nt} {S : Sampling nt num} {d : SphereArgs} {draws : ℕ → Draws nt num}
    (H : SphereDomain a S d draws) (nev : ℕ) :
    ∃ t, simulate nev a S = .ok t ∧
      GenOK d.thickness S.mu_abs (fun _ => 1) ⟨t.position, t.direction, fun i j => fin (t.weight i j)⟩ ∧
      ∀ j, ∃ θ : ℝ, entryAngle d.thickness ⟨t.position, t.direction, fun i j => fin (t.weight i j)⟩ j = fin θ ∧
        0 ≤ θ ∧ θ ≤ Real.pi / 2 := by
  have hm : 0 < a.n_medium := by rw [H.same_medium]; exact H.medium_pos
  have hle : a.n_medium ≤ a.n_sample := by rw [H.same_medium, H.same_sample]; exact H.not_denser
  have hR : 0 < d.thickness / 2 := by have := H.diameter_pos; linarith
  have hok : ∃ p, initializeTraj a = .ok p := by
    unfold initializeTraj
    rw [H.sphere]
    simp only [H.diameter, enter, if_pos H.smooth]
    exact ⟨_, rfl⟩
  obtain ⟨p, hp⟩ := hok
  have hw := (sphere_result H.sphere H.smooth H.diameter hp).1
  have hdir := C37_sphere_direction_partial a H.sphere H.smooth H.diameter H.diameter_pos H.spot.1 H.spot.2 hm hle H.draw_r p hp
  obtain ⟨ang, hang, _, _, hcons⟩ := C35_sample_angles_1d (nt := nt) nev S.p S.min_angle S.draw_theta S.rand_phi H.phase
    H.min_angle.1 H.min_angle.2 H.phase_pos H.rand_phi
  obtain ⟨s, hs, hs0⟩ := steps_real (nt := nt) H.mu_scat H.mu_mie H.fine_step H.rand_step H.rand_mie
  have hval : ∀ r : ℝ, val (fin r) = r := fun _ => rfl
  have hvalV : ∀ v : V3, valV (ofV3 v) = v := fun _ => rfl
  have hrun : simulate nev a S = .ok
      { position := move (fun i j => valV (p.r0 i j)) s (scatter nev (fun i j => valV (p.k0 i j)) ang.sintheta ang.costheta ang.sinphi ang.cosphi)
        direction := scatter nev (fun i j => valV (p.k0 i j)) ang.sintheta ang.costheta ang.sinphi ang.cosphi
        weight := absorb p.weight0 S.mu_abs s
        kz0_rot := p.kz0_rot.map fun f j => val (f j)
        kz0_refl := p.kz0_refl.map fun f j => val (f j) } := by
    simp only [simulate, hp, hang, hs, bind, Except.bind, pure, Except.pure, val]
  refine ⟨_, hrun, ⟨?_, ?_⟩, ?_⟩
  · intro j
    obtain ⟨q, k, h1, h2, -⟩ := hdir j
    dsimp only
    rw [(C33_move_steps _ s _ 0 j).1, h1, hvalV, h2.surface, sq]
  · obtain ⟨h1, h2⟩ := att_facts H.mu_abs hs0
    refine ⟨_, fun i j => ?_, h1, h2⟩
    dsimp only
    rw [absorb, hw]
  · intro j
    obtain ⟨q, k, h1, h2, h3, hk1, -, hk2, hk3, hk4⟩ := hdir j
    unfold entryAngle
    dsimp only
    rw [(C33_move_steps _ s _ 0 j).1, h1, hvalV, (C32_scatter_unit nev (fun i j => valV (p.k0 i j)) ang.sintheta ang.costheta
      ang.sinphi ang.cosphi hcons).1 j, h3, hvalV]
    have hu := h2.normal_unit hR
    set N := inwardNormal (d.thickness / 2) q with hN
    have hNz : 0 ≤ N.z := by
      rw [hN]
      simp only [inwardNormal, V3.smul, V3.sub]
      have h5 := h2.illuminated
      have : 0 ≤ d.thickness / 2 - q.z := by linarith
      positivity
    have hne : V3.sub ⟨0, 0, d.thickness / 2⟩ q ≠ V3.zero := by
      intro h
      rw [hN, inwardNormal, h] at hu
      simp [V3.smul, V3.zero, V3.normSq, V3.dot] at hu
    have hnorm : (V3.sub ⟨0, 0, d.thickness / 2⟩ q).norm = d.thickness / 2 := by
      apply norm_eq_of_normSq hR.le
      have := h2.surface
      simp only [V3.normSq, V3.dot, V3.sub] at this ⊢
      nlinarith
    have hneg : (⟨-(fin q.x : XF), -(fin q.y : XF), -(fin (q.z - d.thickness / 2) : XF)⟩ : XV) =
        ofV3 (V3.sub ⟨0, 0, d.thickness / 2⟩ q) := by
      simp [ofV3, finV, V3.sub]
    have hnc : normalizeCol (ofV3 (V3.sub ⟨0, 0, d.thickness / 2⟩ q)) = ofV3 N := by
      rw [normalizeCol_fin hne, hnorm]; rfl
    unfold getAnglesSphereInit
    simp only [Restart.centred, finV, hneg, hnc]
    have e : (ofV3 N).x * fin k.x + (ofV3 N).y * fin k.y + (ofV3 N).z * fin k.z = fin (V3.dot N k) := by
      simp [ofV3, finV, V3.dot]
    rw [e, nanToNum_fin]
    have hd := dot_mem hu hk1
    refine ⟨Real.arccos (V3.dot N k), arccos_of_mem hd.1 hd.2, Real.arccos_nonneg _, ?_⟩
    rw [Real.arccos_le_pi_div_two]
    have hc2 := hk4
    have hs : 0 < a.n_sample := hm.trans_le hle
    simp only [V3.smul, V3.cross, V3.mk.injEq] at hc2
    obtain ⟨e1, e2, -⟩ := hc2
    have hx : a.n_sample * k.x = a.n_medium * N.x := by linarith
    have hy : a.n_sample * k.y = a.n_medium * N.y := by linarith
    have hkz : 0 ≤ k.z := by simp only [V3.dot] at hk3; linarith
    have hpos : 0 ≤ a.n_sample * V3.dot N k := by
      have : a.n_sample * V3.dot N k = a.n_medium * (N.x * N.x + N.y * N.y) + a.n_sample * (N.z * k.z) := by
        simp only [V3.dot]
        linear_combination N.x * hx + N.y * hy
      rw [this]
      have := mul_self_nonneg N.x
      have := mul_self_nonneg N.y
      positivity
    exact nonneg_of_mul_nonneg_right hpos hs

/-- nothing is lost at a call: no absorption, at least one event, all light that leaves is detected -/
def Lossless (mu_abs : ℝ) (nev : ℕ) (o : Optics) : Prop :=
  mu_abs = 0 ∧ 0 < nev ∧ 0 < o.n_sample ∧ o.n_sample ≤ o.n_tir ∧ o.detection_angle = Real.pi / 2

/-- one call of `calc_refl_trans`, up to the distribution of what is undecided -/
theorem sphere_level {D mu : ℝ} (hD : 0 < D) {o : Optics} (ho : OpticsOK o) (nev : ℕ) {t : SphTrajs nt} {ω : Fin nt → ℝ}
    (hω : ∀ j, 0 ≤ ω j ∧ ω j ≤ 1) (ht : GenOK D mu ω t) (ft : Bool)
    (hinc : ft = false → ∀ j, ∃ θ : ℝ, entryAngle D t j = fin θ ∧ 0 ≤ θ ∧ θ ≤ Real.pi / 2) :
    ∃ (l : Level nt) (c : RIn nt) (ir : Fin nt → ℝ),
      level o (sphereGeometry nev o D t) none ft (fun (e : Fin nev) j => t.weight e j) = .ok l ∧
      LevelFin l c o.n_sample o.n_medium o.detection_angle ft ir ∧ c.Good ∧
      (∀ j, 0 ≤ ir j ∧ ir j ≤ 1 - c.i j) ∧ (∀ j, c.r j + c.t j + c.s j ≤ c.i j * ω j) ∧
      (ft = true → ∀ j, c.i j = 1) ∧
      (Lossless mu nev o → (∀ j, c.r j + c.t j + c.s j = c.i j * ω j) ∧ (∀ j, ir j = 1 - c.i j) ∧
        (∀ j, c.dr o.n_sample o.n_medium o.detection_angle j = c.Pr j) ∧
        (∀ j, c.dt o.n_sample o.n_medium o.detection_angle j = c.Pt j) ∧
        c.rdf o.n_sample o.n_medium o.detection_angle = 1 ∧ c.tdf o.n_sample o.n_medium o.detection_angle = 1) := by
  obtain ⟨att, hw, hatt, hatt1⟩ := ht.weight
  set g := sphereGeometry nev o D t with hg
  have hcase := fun j => sphere_cases o.n_tir o.n_medium D (rowsP nev t.position) (rowsD nev t.direction) j
  have hri : ∀ j, g.ri j = 0 ∨ ∃ e : Fin nev, IsFirst nev (OutsideAfter D (rowsP nev t.position) j) (e.val + 1) ∧ g.ri j = e.val + 1 := by
    intro j
    rcases hcase j with ⟨h, -⟩ | ⟨e, he, ⟨h, -⟩ | ⟨h, -⟩ | ⟨h, -⟩⟩
    · exact Or.inl h
    · exact Or.inr ⟨e, he, h⟩
    · exact Or.inl h
    · exact Or.inl h
  have hti : ∀ j, g.ti j = 0 ∨ ∃ e : Fin nev, IsFirst nev (OutsideAfter D (rowsP nev t.position) j) (e.val + 1) ∧ g.ti j = e.val + 1 := by
    intro j
    rcases hcase j with ⟨-, h, -⟩ | ⟨e, he, ⟨-, h, -⟩ | ⟨-, h, -⟩ | ⟨-, h, -⟩⟩
    · exact Or.inl h
    · exact Or.inl h
    · exact Or.inr ⟨e, he, h⟩
    · exact Or.inl h
  have hex : ∀ j, (g.ti j = 0 ∧ g.si j = 0 ∧ 0 < g.ri j ∧ g.ri j ≤ nev) ∨ (g.ri j = 0 ∧ g.si j = 0 ∧ 0 < g.ti j ∧ g.ti j ≤ nev) ∨
      (g.ri j = 0 ∧ g.ti j = 0 ∧ g.si j = nev) := by
    intro j
    rcases hcase j with ⟨h1, h2, h3, -⟩ | ⟨e, he, ⟨h1, h2, h3, -⟩ | ⟨h1, h2, h3, -⟩ | ⟨h1, h2, h3, -⟩⟩
    · exact Or.inr (Or.inr ⟨h1, h2, h3⟩)
    · exact Or.inl ⟨h2, h3, (Nat.succ_pos e.val).trans_eq h1.symm, h1.le.trans e.isLt⟩
    · exact Or.inr (Or.inl ⟨h1, h3, (Nat.succ_pos e.val).trans_eq h2.symm, h2.le.trans e.isLt⟩)
    · exact Or.inr (Or.inr ⟨h1, h2, h3⟩)
  have hθr : ∀ j, ∃ θ : ℝ, g.thRefl j = fin θ ∧ 0 ≤ θ ∧ θ ≤ Real.pi / 2 := fun j => exitAngle_mem hD (ht.inside j) (hri j)
  have hθt : ∀ j, ∃ θ : ℝ, g.thTrans j = fin θ ∧ 0 ≤ θ ∧ θ ≤ Real.pi / 2 := fun j => exitAngle_mem hD (ht.inside j) (hti j)
  choose θr hr1 hr2 using hθr
  choose θt ht1 ht2 using hθt
  have hi : ∃ i : Fin nt → ℝ, incPassFrac ft g.thInc o.n_medium o.n_front o.n_tir = .ok (fun j => fin (i j)) ∧
      (∀ j, 0 ≤ i j ∧ i j ≤ 1) ∧ (ft = true → ∀ j, i j = 1) := by
    cases ft with
    | true => exact ⟨fun _ => 1, by simp [incPassFrac], fun _ => by norm_num, fun _ _ => rfl⟩
    | false =>
      choose θ h1 h2 using hinc rfl
      have e : g.thInc = fun j => fin (θ j) := funext h1
      exact ⟨fun j => passFrac o.n_medium o.n_front o.n_tir (θ j), by
        simp only [incPassFrac, Bool.false_eq_true, if_false, e]
        exact fresnelPassFrac_fin _ _ ho.medium ho.front h2,
        fun j => passFrac_mem _ ho.medium ho.front (h2 j).1 (h2 j).2, fun h => (nomatch h)⟩
  obtain ⟨i, hi, hi01, hi1⟩ := hi
  obtain ⟨ir, hir, hir0, hir1⟩ := incReflIs_exists o g none i (fun j => (hi01 j).2)
  have hw' : (fun (e : Fin nev) j => t.weight e j) = fun (e : Fin nev) j => (fin (ω j * att e j) : XF) := by
    funext e j; exact hw e j
  rw [hw']
  obtain ⟨l, hl, hL⟩ := level_fin o g none ft (fun (e : Fin nev) j => ω j * att e j) i θr θt ir ho.tir ho.medium ho.front
    ho.back hi (funext hr1) (funext ht1) hr2 ht2 hir
  have hbw : ∀ (e : Fin nev) j, 0 ≤ ω j * att e j ∧ ω j * att e j ≤ 1 := fun e j =>
    ⟨mul_nonneg (hω j).1 (hatt e j).1, by nlinarith [hω j, hatt e j]⟩
  have hex' : ∀ j, (g.ti j = 0 ∧ g.si j = 0) ∨ (g.ri j = 0 ∧ g.si j = 0) ∨ (g.ri j = 0 ∧ g.ti j = 0) := by
    intro j
    rcases hex j with h | h | h
    · exact Or.inl ⟨h.1, h.2.1⟩
    · exact Or.inr (Or.inl ⟨h.1, h.2.1⟩)
    · exact Or.inr (Or.inr ⟨h.1, h.2.1⟩)
  have hz : ∀ (idx : Fin nt → ℕ) j, idx j = 0 → Root.sel (fun (e : Fin nev) j => ω j * att e j) idx j = 0 :=
    fun idx j h => Root.sel_zero _ idx j h
  refine ⟨l, _, ir, hl, hL, shadow_good ho.tir ho.front ho.back hr2 ht2 hi01 hbw hex', fun j => ⟨hir0 j, hir1 j⟩, ?_, hi1, ?_⟩
  · intro j
    show i j * Root.sel _ g.ri j + i j * Root.sel _ g.ti j + i j * Root.sel _ g.si j ≤ i j * ω j
    have hsel : ∀ (idx : Fin nt → ℕ), Root.sel (fun (e : Fin nev) j => ω j * att e j) idx j ≤ ω j := by
      intro idx
      unfold Root.sel
      split
      · next h => nlinarith [hω j, hatt (idx j - 1) j]
      · exact (hω j).1
    have hij := hi01 j
    rcases hex' j with ⟨h1, h2⟩ | ⟨h1, h2⟩ | ⟨h1, h2⟩ <;> rw [hz _ j h1, hz _ j h2]
    · nlinarith [hsel g.ri]
    · nlinarith [hsel g.ti]
    · nlinarith [hsel g.si]
  · rintro ⟨h0, hnev, hns, hle, hdet⟩
    have hdr : ∀ j, (shadow o g (fun (e : Fin nev) j => ω j * att e j) i θr θt).dr o.n_sample o.n_medium o.detection_angle j =
        (shadow o g (fun (e : Fin nev) j => ω j * att e j) i θr θt).Pr j := fun j => by
      rw [hdet]; exact dcR_full hns hle ho.medium ho.front (hr2 j).1 (hr2 j).2
    have hdt : ∀ j, (shadow o g (fun (e : Fin nev) j => ω j * att e j) i θr θt).dt o.n_sample o.n_medium o.detection_angle j =
        (shadow o g (fun (e : Fin nev) j => ω j * att e j) i θr θt).Pt j := fun j => by
      rw [hdet]; exact dcR_full hns hle ho.medium ho.back (ht2 j).1 (ht2 j).2
    refine ⟨?_, ?_, hdr, hdt, ?_, ?_⟩
    · intro j
      show i j * Root.sel _ g.ri j + i j * Root.sel _ g.ti j + i j * Root.sel _ g.si j = i j * ω j
      have hsel : ∀ (idx : Fin nt → ℕ), 0 < idx j → idx j ≤ nev → Root.sel (fun (e : Fin nev) j => ω j * att e j) idx j = ω j := by
        intro idx h1 h2
        unfold Root.sel
        rw [dif_pos ⟨h1, by omega⟩]
        show ω j * att _ j = ω j
        rw [hatt1 h0, mul_one]
      rcases hex j with ⟨h1, h2, h3, h4⟩ | ⟨h1, h2, h3, h4⟩ | ⟨h1, h2, h3⟩
      · rw [hz _ j h1, hz _ j h2, hsel _ h3 h4]; ring
      · rw [hz _ j h1, hz _ j h2, hsel _ h3 h4]; ring
      · rw [hz _ j h1, hz _ j h2, hsel _ (by omega) (by omega)]; ring
    · intro j
      show ir j = 1 - i j
      cases hft : ft with
      | true =>
        have h1 := hi1 hft j
        have := hir0 j
        have := hir1 j
        linarith
      | false =>
        choose θ h1 h2 using hinc hft
        have e : g.thIncDet = fun j => fin (θ j) := funext h1
        have h3 := hir j
        simp only [e, detectCorrect_fin _ _ ho.medium.ne', fin_inj] at h3
        rw [← h3, dcR, if_pos]
        rw [div_self ho.medium.ne', one_mul, hdet]
        exact ⟨Real.abs_sin_le_one _, Real.arcsin_le_pi_div_two _⟩
    · unfold RIn.rdf
      rw [Finset.sum_congr rfl fun j _ => hdr j, div_self (RIn.maxEPS_pos _).ne']
    · unfold RIn.tdf
      rw [Finset.sum_congr rfl fun j _ => hdt j, div_self (RIn.maxEPS_pos _).ne']

/-- the final distribution at a sphere, nothing lost -/
theorem distribute_sphere_lossless (hnt : 0 < nt) {l : Level nt} {c : RIn nt} {ns nm th : ℝ} {ft : Bool}
    {ir : Fin nt → ℝ} (h : LevelFin l c ns nm th ft ir) (hr : ∀ j, c.dr ns nm th j = c.Pr j) (ht : ∀ j, c.dt ns nm th j = c.Pt j)
    (hrd : c.rdf ns nm th = 1) (htd : c.tdf ns nm th = 1) {R T : ℝ}
    (hR : (distribute l.exit l.det l.out.stuck .sphere false).R = fin R)
    (hT : (distribute l.exit l.det l.out.stuck .sphere false).T = fin T) :
    R + T = ∑ j, (c.r j + c.t j + c.s j + ir j) / nt := by
  have hn : (0:ℝ) < nt := by exact_mod_cast hnt
  have hn0 := hn.ne'
  simp only [distribute, h.reflFresnel, h.transFresnel, h.stuck, h.refl, h.incRefl, h.rdf, Bool.false_eq_true, if_false,
      fin_add, fin_mul, fin_div _ hn0, sum_fin, fin_inj] at hR
  simp only [distribute, h.reflFresnel, h.transFresnel, h.stuck, h.trans, h.tdf,
      fin_add, fin_mul, fin_div _ hn0, sum_fin, fin_inj] at hT
  rw [← hR, ← hT, ← Finset.sum_add_distrib]
  apply Finset.sum_congr rfl
  intro j _
  rw [hr, ht, hrd, htd, ← add_div]
  congr 1
  unfold RIn.fr RIn.ft
  ring

/-- the final distribution at a sphere, per trajectory -/
theorem distribute_sphere_per (hnt : 0 < nt) {l : Level nt} {c : RIn nt} {ns nm th : ℝ} {ft : Bool}
    {ir : Fin nt → ℝ} (h : LevelFin l c ns nm th ft ir) (hg : c.Good) (hir : ∀ j, 0 ≤ ir j) {R T : ℝ}
    (hR : (distribute l.exit l.det l.out.stuck .sphere false).R = fin R)
    (hT : (distribute l.exit l.det l.out.stuck .sphere false).T = fin T) :
    ∃ fr ft : Fin nt → ℝ, (∀ j, (distribute l.exit l.det l.out.stuck .sphere false).reflPer j = fin (fr j) ∧
      (distribute l.exit l.det l.out.stuck .sphere false).transPer j = fin (ft j) ∧ 0 ≤ fr j ∧ 0 ≤ ft j) ∧
      R = ∑ j, fr j ∧ T = ∑ j, ft j := by
  have hn : (0:ℝ) < nt := by exact_mod_cast hnt
  have hn0 := hn.ne'
  simp only [distribute, h.reflFresnel, h.transFresnel, h.stuck, h.refl, h.incRefl, h.rdf, Bool.false_eq_true, if_false,
      fin_add, fin_mul, fin_div _ hn0, sum_fin, fin_inj] at hR
  simp only [distribute, h.reflFresnel, h.transFresnel, h.stuck, h.trans, h.tdf,
      fin_add, fin_mul, fin_div _ hn0, sum_fin, fin_inj] at hT
  refine ⟨_, _, fun j => ⟨?_, ?_, ?_, ?_⟩, hR.symm, hT.symm⟩
  · simp only [distribute, h.reflFresnel, h.transFresnel, h.stuck, h.refl, h.incRefl, h.rdf, Bool.false_eq_true, if_false,
      fin_add, fin_mul, fin_div _ hn0]
  · simp only [distribute, h.reflFresnel, h.transFresnel, h.stuck, h.trans, h.tdf,
      fin_add, fin_mul, fin_div _ hn0]
  · have h1 := hg.dr0 ns nm th j; have h2 := hg.fr0 j; have h3 := hg.ft0 j; have h4 := hg.s0 j; have h5 := hir j
    have h6 := hg.rdf0 ns nm th
    positivity
  · have h1 := hg.dt0 ns nm th j; have h2 := hg.fr0 j; have h3 := hg.ft0 j; have h4 := hg.s0 j
    have h6 := hg.tdf0 ns nm th
    positivity

/-- All levels: the accumulated reflectance and transmittance are non-negative numbers and their sum is at most the mean of
`i·ω + (1 - i)`, where `i` is the fraction of light that entered (1 for re-runs); exactly that if nothing is lost. -/
theorem sphere_bound {a : Args nt} {S : Sampling nt num} {d : SphereArgs} {draws : ℕ → Draws nt num}
    (H : SphereDomain a S d draws) (hon : OpticsOK d.nested) (k : ℕ) :
    ∀ (o : Optics), OpticsOK o → ∀ (M depth nev : ℕ) (t : SphTrajs nt) (ω : Fin nt → ℝ),
      2 * (20 - depth) + min 1 (M - depth) = k → (∀ j, 0 ≤ ω j ∧ ω j ≤ 1) → GenOK d.thickness S.mu_abs ω t →
      (depth = 0 → ∀ j, ∃ θ : ℝ, entryAngle d.thickness t j = fin θ ∧ 0 ≤ θ ∧ θ ≤ Real.pi / 2) →
      ∃ (r : RT nt) (R T : ℝ) (i : Fin nt → ℝ), calcSphere d.thickness ⟨S.p, S.mu_scat, S.mu_scat_mie, S.mu_abs⟩ draws d.run_fresnel_traj d.max_stuck d.nested o
          M depth nev t = .ok r ∧ r.R = fin R ∧ r.T = fin T ∧ 0 ≤ R ∧ 0 ≤ T ∧ (∀ j, 0 ≤ i j ∧ i j ≤ 1) ∧
        (0 < depth → ∀ j, i j = 1) ∧ R + T ≤ ∑ j, (i j * ω j + (1 - i j)) / nt ∧
        (Lossless S.mu_abs nev o → R + T = ∑ j, (i j * ω j + (1 - i j)) / nt) ∧
        ∃ fr ft : Fin nt → ℝ, (∀ j, r.reflPer j = fin (fr j) ∧ r.transPer j = fin (ft j) ∧ 0 ≤ fr j ∧ 0 ≤ ft j) ∧
          R = ∑ j, fr j ∧ T = ∑ j, ft j := by
  have hn : (0:ℝ) < nt := by exact_mod_cast H.nt_pos
  have hn0 := hn.ne'
  have hD := H.diameter_pos
  induction k using Nat.strong_induction_on with
  | _ k ih =>
    intro o ho M depth nev t ω hk hω ht hinc
    obtain ⟨l, c, ir, hl, hL, hg, hir, hsum, h1, hloss⟩ := sphere_level hD ho nev hω ht (decide (0 < depth))
      (fun h => hinc (by simpa using h))
    have hi01 : ∀ j, 0 ≤ c.i j ∧ c.i j ≤ 1 := fun j => ⟨hg.i0 j, hg.i1 j⟩
    have hd1 : 0 < depth → ∀ j, c.i j = 1 := fun hd => h1 (by simpa using hd)
    by_cases hc : d.run_fresnel_traj = true ∧ depth < M ∧ (fin d.max_stuck : XF) < l.totalStuck
    · -- one more generation
      have hcase := fun j => sphere_cases o.n_tir o.n_medium d.thickness (rowsP nev t.position) (rowsD nev t.direction) j
      obtain ⟨F, hF, hFin⟩ := restart_inside (dir := rowsD nev t.direction) hD (pos := rowsP nev t.position) ht.inside
        (idx := Restart.restartIndices (sphereEvents nev o d.thickness t).1 (sphereEvents nev o d.thickness t).2.1
          (sphereEvents nev o d.thickness t).2.2.2) (by
          intro j
          show Restart.restartIndices _ _ _ j = 0 ∨ ∃ e : Fin nev, _ ∧ Restart.restartIndices _ _ _ j = _
          unfold Restart.restartIndices
          rcases hcase j with ⟨h1, h2, -, h3⟩ | ⟨e, he, ⟨h1, h2, -, h3⟩ | ⟨h1, h2, -, h3⟩ | ⟨h1, h2, -, h3⟩⟩
          · exact Or.inl (by rw [sphereEvents]; omega)
          · exact Or.inr ⟨e, he, by rw [sphereEvents]; omega⟩
          · exact Or.inr ⟨e, he, by rw [sphereEvents]; omega⟩
          · exact Or.inr ⟨e, he, by rw [sphereEvents]; omega⟩)
      have hW : Restart.restartWeight l.exit.reflFresnel l.exit.transFresnel l.out.stuck =
          fun j => (fin (c.fr j + c.ft j + c.s j) : XF) := by
        funext j
        rw [Restart.restartWeight, hL.reflFresnel, hL.transFresnel, hL.stuck, fin_add, fin_add]
      obtain ⟨t', ht', hgen⟩ := rerun_ok H (nev + 1) (depth + 1) (ω := fun j => c.fr j + c.ft j + c.s j) hFin
      have hω' : ∀ j, 0 ≤ c.fr j + c.ft j + c.s j ∧ c.fr j + c.ft j + c.s j ≤ 1 := by
        intro j
        have := hg.fr0 j; have := hg.ft0 j; have := hg.s0 j
        have := hg.Pr0 j; have := hg.Pt0 j
        have := hsum j
        have : c.i j * ω j ≤ 1 := by nlinarith [hi01 j, hω j]
        have e1 : c.fr j = c.r j - c.Pr j := rfl
        have e2 : c.ft j = c.t j - c.Pt j := rfl
        constructor <;> linarith
      have hlt : 2 * (20 - (depth + 1)) + min 1 (defaultMaxCallDepth - (depth + 1)) < k := by
        have := hc.2.1
        unfold defaultMaxCallDepth
        omega
      obtain ⟨r', R', T', i', hr', hR', hT', hR0, hT0, -, hi1', hb, hbl, fr', ft', hper', hRs', hTs'⟩ := ih _ hlt d.nested hon defaultMaxCallDepth
        (depth + 1) (nev + 1) t' _ rfl hω' hgen (fun h => absurd h (by omega))
      have hi1'' := hi1' (by omega)
      refine ⟨{ R := r'.R + ∑ j, (l.det.refl j + l.det.incRefl j) / fin nt
                T := r'.T + ∑ j, l.det.trans j / fin nt
                reflPer := fun j => r'.reflPer j + (l.det.refl j + l.det.incRefl j) / fin nt
                transPer := fun j => r'.transPer j + l.det.trans j / fin nt },
          R' + ∑ j, (c.dr o.n_sample o.n_medium o.detection_angle j + ir j) / nt,
          T' + ∑ j, c.dt o.n_sample o.n_medium o.detection_angle j / nt, c.i, by
            rw [calcSphere]
            simp only [hl, bind, Except.bind, dif_pos hc, hF, hW, ht', hr', pure, Except.pure], ?_, ?_, ?_, ?_, hi01, hd1, ?_, ?_, ?_⟩
      · simp only [hR', hL.refl, hL.incRefl, fin_add, fin_div _ hn0, sum_fin]
      · simp only [hT', hL.trans, fin_add, fin_div _ hn0, sum_fin]
      · apply add_nonneg hR0
        apply Finset.sum_nonneg
        intro j _
        have := hg.dr0 o.n_sample o.n_medium o.detection_angle j
        have := (hir j).1
        positivity
      · apply add_nonneg hT0
        apply Finset.sum_nonneg
        intro j _
        have := hg.dt0 o.n_sample o.n_medium o.detection_angle j
        positivity
      · have hb' : R' + T' ≤ ∑ j, (c.fr j + c.ft j + c.s j) / nt := by
          refine hb.trans (le_of_eq ?_)
          apply Finset.sum_congr rfl
          intro j _
          rw [hi1'' j]; ring
        have : ∑ j, (c.fr j + c.ft j + c.s j) / nt +
            (∑ j, (c.dr o.n_sample o.n_medium o.detection_angle j + ir j) / nt +
            ∑ j, c.dt o.n_sample o.n_medium o.detection_angle j / nt) ≤ ∑ j, (c.i j * ω j + (1 - c.i j)) / nt := by
          rw [← Finset.sum_add_distrib, ← Finset.sum_add_distrib]
          apply Finset.sum_le_sum
          intro j _
          rw [← add_div, ← add_div]
          apply div_le_div_of_nonneg_right _ hn.le
          have e1 : c.fr j = c.r j - c.Pr j := rfl
          have e2 : c.ft j = c.t j - c.Pt j := rfl
          have e3 := hg.dr_le o.n_sample o.n_medium o.detection_angle j
          have e4 := hg.dt_le o.n_sample o.n_medium o.detection_angle j
          have e5 := hsum j
          have e6 := (hir j).2
          linarith
        linarith
      · intro hls
        obtain ⟨g1, g2, g3, g4, -, -⟩ := hloss hls
        have hnl : Lossless S.mu_abs (nev + 1) d.nested := by
          refine ⟨hls.1, Nat.succ_pos _, ?_, le_rfl, rfl⟩
          exact lt_of_lt_of_le H.medium_pos H.not_denser
        have hb' : R' + T' = ∑ j, (c.fr j + c.ft j + c.s j) / nt := by
          refine (hbl hnl).trans ?_
          apply Finset.sum_congr rfl
          intro j _
          rw [hi1'' j]; ring
        have : ∑ j, (c.fr j + c.ft j + c.s j) / nt +
            (∑ j, (c.dr o.n_sample o.n_medium o.detection_angle j + ir j) / nt +
            ∑ j, c.dt o.n_sample o.n_medium o.detection_angle j / nt) = ∑ j, (c.i j * ω j + (1 - c.i j)) / nt := by
          rw [← Finset.sum_add_distrib, ← Finset.sum_add_distrib]
          apply Finset.sum_congr rfl
          intro j _
          rw [← add_div, ← add_div]
          congr 1
          have e1 : c.fr j = c.r j - c.Pr j := rfl
          have e2 : c.ft j = c.t j - c.Pt j := rfl
          rw [g3, g4, g2, e1, e2, ← g1]
          ring
        linarith
      · refine ⟨fun j => fr' j + (c.dr o.n_sample o.n_medium o.detection_angle j + ir j) / nt,
          fun j => ft' j + c.dt o.n_sample o.n_medium o.detection_angle j / nt, fun j => ?_, ?_, ?_⟩
        · obtain ⟨h1, h2, h3, h4⟩ := hper' j
          have h5 := hg.dr0 o.n_sample o.n_medium o.detection_angle j
          have h6 := (hir j).1
          have h7 := hg.dt0 o.n_sample o.n_medium o.detection_angle j
          refine ⟨?_, ?_, by positivity, by positivity⟩
          · simp only [h1, hL.refl, hL.incRefl, fin_add, fin_div _ hn0]
          · simp only [h2, hL.trans, fin_add, fin_div _ hn0]
        · rw [hRs', Finset.sum_add_distrib]
        · rw [hTs', Finset.sum_add_distrib]
    · obtain ⟨R, T, hR, hT, hR0, hT0, hb⟩ := distribute_sphere_fin H.nt_pos hL hg (fun j => (hir j).1)
      refine ⟨distribute l.exit l.det l.out.stuck .sphere false, R, T, c.i, by rw [calcSphere]; simp only [hl, bind, Except.bind, dif_neg hc, pure, Except.pure], hR, hT, hR0,
        hT0, hi01, hd1, hb.trans ?_, ?_, distribute_sphere_per H.nt_pos hL hg (fun j => (hir j).1) hR hT⟩
      · apply Finset.sum_le_sum
        intro j _
        apply div_le_div_of_nonneg_right _ hn.le
        have e5 := hsum j
        have e6 := (hir j).2
        linarith
      · intro hls
        obtain ⟨g1, g2, g3, g4, g5, g6⟩ := hloss hls
        rw [distribute_sphere_lossless H.nt_pos hL g3 g4 g5 g6 hR hT]
        apply Finset.sum_congr rfl
        intro j _
        rw [g1, g2]

theorem sphere_optics {a : Args nt} {S : Sampling nt num} {d : SphereArgs} {draws : ℕ → Draws nt num}
    (H : SphereDomain a S d draws) : OpticsOK d.optics ∧ OpticsOK d.nested := by
  have hs : 0 < d.n_sample := lt_of_lt_of_le H.medium_pos H.not_denser
  refine ⟨⟨H.medium_pos, ?_, H.front, H.back⟩, ⟨H.medium_pos, hs, fun x h => (nomatch h), fun x h => (nomatch h)⟩⟩
  exact nTir_pos (d := ⟨d.n_medium, d.n_sample, 0, 0, none, none, 0, d.fine_roughness, d.n_particle, d.n_matrix, none⟩) hs
    H.particle H.matrix H.fine

/-- C100.  Every complete simulation of a sphere in the documented domain, with or without re-runs of the light sent back at
the surface, runs without an error and gives numbers: reflectance and transmittance are non-negative with sum at most 1 —
for all random numbers of all generations, all numbers of photons and events, all `max_call_depth` and `max_stuck`. -/
theorem C100_sphere_run_fractions {a : Args nt} {S : Sampling nt num} {d : SphereArgs} {draws : ℕ → Draws nt num}
    (H : SphereDomain a S d draws) (nev : ℕ) :
    ∃ rt R T, runSphere nev a S d draws = .ok rt ∧ rt.R = fin R ∧ rt.T = fin T ∧ 0 ≤ R ∧ 0 ≤ T ∧ R + T ≤ 1 := by
  obtain ⟨ho, hon⟩ := sphere_optics H
  obtain ⟨t, ht, hgen, hent⟩ := sphere_simulate H nev
  obtain ⟨r, R, T, i, hr, hR, hT, h0, h1, -, -, hb, -, -⟩ := sphere_bound H hon _ d.optics ho d.max_call_depth 0 nev _ (fun _ => 1) rfl
    (fun _ => by norm_num) hgen (fun _ => hent)
  refine ⟨r, R, T, by simp only [runSphere, ht, bind, Except.bind, hr], hR, hT, h0, h1, hb.trans ?_⟩
  have hn : (nt:ℝ) ≠ 0 := by exact_mod_cast H.nt_pos.ne'
  have : ∀ j : Fin nt, (i j * 1 + (1 - i j)) / (nt:ℝ) = 1 / nt := by intro j; congr 1; ring
  rw [Finset.sum_congr rfl fun j _ => this j, Finset.sum_const, Finset.card_univ, Fintype.card_fin, nsmul_eq_mul]
  field_simp
  exact le_rfl

/-- C100, per trajectory: the arrays of reflected and transmitted light per trajectory are non-negative numbers that add up to
reflectance and transmittance. -/
theorem C100_sphere_per_traj {a : Args nt} {S : Sampling nt num} {d : SphereArgs} {draws : ℕ → Draws nt num}
    (H : SphereDomain a S d draws) (nev : ℕ) :
    ∃ rt, ∃ fr ft : Fin nt → ℝ, runSphere nev a S d draws = .ok rt ∧
      (∀ j, rt.reflPer j = fin (fr j) ∧ rt.transPer j = fin (ft j) ∧ 0 ≤ fr j ∧ 0 ≤ ft j) ∧
      rt.R = fin (∑ j, fr j) ∧ rt.T = fin (∑ j, ft j) ∧ ∑ j, (fr j + ft j) ≤ 1 := by
  obtain ⟨rt, R, T, hrun, hR, hT, -, -, hle⟩ := C100_sphere_run_fractions H nev
  obtain ⟨ho, hon⟩ := sphere_optics H
  obtain ⟨t, ht, hgen, hent⟩ := sphere_simulate H nev
  obtain ⟨r, R', T', i, hr, hR', hT', -, -, -, -, -, -, fr, ft, hper, hRs, hTs⟩ := sphere_bound H hon _ d.optics ho
    d.max_call_depth 0 nev _ (fun _ => 1) rfl (fun _ => by norm_num) hgen (fun _ => hent)
  have : runSphere nev a S d draws = .ok r := by simp only [runSphere, ht, bind, Except.bind, hr]
  rw [hrun] at this
  injection this with this
  subst this
  rw [hR', fin_inj] at hR
  rw [hT', fin_inj] at hT
  refine ⟨rt, fr, ft, hrun, hper, by rw [hR', hRs], by rw [hT', hTs], ?_⟩
  rw [Finset.sum_add_distrib, ← hRs, ← hTs, hR, hT]
  exact hle

/-- C100.  Without absorption and with detection over the full hemispheres no light is lost: reflectance and transmittance add
up to exactly 1, whatever the re-runs.  (The index used for total reflection is at least that of the sample whenever fine
roughness is absent or the denser constituent is denser than the sample.) -/
theorem C100_sphere_run_lossless {a : Args nt} {S : Sampling nt num} {d : SphereArgs} {draws : ℕ → Draws nt num}
    (H : SphereDomain a S d draws) {nev : ℕ} (hnev : 0 < nev) (hmu : S.mu_abs = 0) (hdet : d.detection_angle = Real.pi / 2)
    (hfine : d.fine_roughness = 0 ∨ ∀ p m, d.n_particle = some p → d.n_matrix = some m → d.n_sample ≤ max p m) :
    ∃ rt R T, runSphere nev a S d draws = .ok rt ∧ rt.R = fin R ∧ rt.T = fin T ∧ 0 ≤ R ∧ 0 ≤ T ∧ R + T = 1 := by
  obtain ⟨ho, hon⟩ := sphere_optics H
  obtain ⟨t, ht, hgen, hent⟩ := sphere_simulate H nev
  obtain ⟨r, R, T, i, hr, hR, hT, h0, h1, -, -, -, hb, -⟩ := sphere_bound H hon _ d.optics ho d.max_call_depth 0 nev _ (fun _ => 1) rfl
    (fun _ => by norm_num) hgen (fun _ => hent)
  have hs : 0 < d.n_sample := lt_of_lt_of_le H.medium_pos H.not_denser
  have hns : d.optics.n_sample ≤ d.optics.n_tir :=
    nTir_ge (d := ⟨d.n_medium, d.n_sample, 0, 0, none, none, 0, d.fine_roughness, d.n_particle, d.n_matrix, none⟩) H.fine hfine
  refine ⟨r, R, T, by simp only [runSphere, ht, bind, Except.bind, hr], hR, hT, h0, h1, (hb ⟨hmu, hnev, hs, hns, hdet⟩).trans ?_⟩
  have hn : (nt:ℝ) ≠ 0 := by exact_mod_cast H.nt_pos.ne'
  have : ∀ j : Fin nt, (i j * 1 + (1 - i j)) / (nt:ℝ) = 1 / nt := by intro j; congr 1; ring
  rw [Finset.sum_congr rfl fun j _ => this j, Finset.sum_const, Finset.card_univ, Fintype.card_fin, nsmul_eq_mul]
  field_simp

/-- Non-vacuity of C100: one photon in a sphere of diameter 2 and index 3/2 in air, an isotropic phase function on three
angles, re-runs requested. -/
theorem demo_sphereRun (mu : ℝ) (hmu : 0 ≤ mu) : SphereDomain
    (nt := 1) (num := 3)
    ⟨1, 3 / 2, .sphere, 0, 0, none, 0, 0, none, 1, some 2, 0, fun _ => 0, fun _ => 0, fun _ => 0, fun _ => 0, fun _ => 1 / 2,
      fun _ => 0, fun _ => 0⟩
    (demoSampling mu)
    ⟨1, 3 / 2, 2, none, none, Real.pi / 2, 0, none, none, true, 20, 1 / 100⟩
    (fun _ => ⟨fun _ _ => 1, fun _ _ => 0, fun _ _ => 1 / 2, fun _ => 1 / 2⟩) where
  nt_pos := one_pos
  sphere := rfl
  smooth := rfl
  diameter := rfl
  diameter_pos := by norm_num
  spot := by norm_num
  same_medium := rfl
  same_sample := rfl
  medium_pos := one_pos
  not_denser := by norm_num
  front := fun x hx => (nomatch hx)
  back := fun x hx => (nomatch hx)
  particle := fun x hx => (nomatch hx)
  matrix := fun x hx => (nomatch hx)
  fine := ⟨le_rfl, zero_le_one⟩
  draw_r := fun _ => by norm_num
  phase := fun _ => zero_le_one
  min_angle := ⟨le_rfl, Real.pi_pos.le⟩
  phase_pos := (demo_filmRun mu hmu none).phase_pos
  phase_pos_rerun := by
    have h2 := Real.two_le_pi
    simp only [demoSampling, solidWeight, linspace, Fin.sum_univ_three]
    norm_num
    have h1 : 0 < Real.sin (1 / 100) := Real.sin_pos_of_pos_of_lt_pi (by norm_num) (by linarith)
    have h3 : 0 < Real.sin (1 / 100 + (Real.pi - 1 / 100) / 2) :=
      Real.sin_pos_of_pos_of_lt_pi (by linarith) (by linarith)
    have h4 : 1 / 100 + 2 * ((Real.pi - 1 / 100) / 2) = Real.pi := by ring
    rw [h4, Real.sin_pi]
    linarith
  rand_phi := fun _ _ => ⟨le_rfl, one_pos⟩
  mu_scat := one_pos
  mu_mie := fun m hm => (nomatch hm)
  fine_step := ⟨le_rfl, zero_le_one⟩
  rand_step := fun _ _ => by norm_num [demoSampling]
  rand_mie := fun _ => by norm_num [demoSampling]
  mu_abs := hmu
  rerun_phi := fun _ _ _ => ⟨le_rfl, one_pos⟩
  rerun_step := fun _ _ _ => by norm_num
  rerun_mie := fun _ _ => by norm_num

end Verif.Props
