import Verif.Model.Simulation
import Verif.Props.Init2
import Verif.Props.Sampling
import Verif.Props.Weights

/-!
# C95: a complete film simulation, from `initialize` to `calc_refl_trans`
-/

namespace Verif.Props
open Verif.Simulation Verif.Spec Verif.XF Verif.Geometry Verif.Init Verif.Traj
open Verif (XF PyErr)
open Verif.Geometry (XV)

variable {nt num : ℕ}

/-- The documented domain of a film simulation: photons coming from a medium not denser than the sample; any angles, draws in
[0,1), non-negative phase function that does not vanish, positive scattering and non-negative absorption coefficients,
positive indices of cover slips and constituents, roughness fractions in [0,1].  (Coarse roughness of any kind is allowed.) -/
structure FilmRun (a : Args nt) (S : Sampling nt num) (d : DetArgs) : Prop where
  nt_pos : 0 < nt
  film : a.boundary = .film
  no_diameter : a.sample_diameter = none
  theta_len : LengthOk nt a.theta_data
  phi_len : LengthOk nt a.phi_data
  theta_range : a.theta_min ≤ a.theta_max
  phi_range : a.phi_min ≤ a.phi_max
  same_medium : a.n_medium = d.n_medium
  same_sample : a.n_sample = d.n_sample
  medium_pos : 0 < d.n_medium
  not_denser : d.n_medium ≤ d.n_sample
  front : ∀ x, d.n_front = some x → 0 < x
  back : ∀ x, d.n_back = some x → 0 < x
  particle : ∀ x, d.n_particle = some x → 0 < x
  matrix : ∀ x, d.n_matrix = some x → 0 < x
  fine : 0 ≤ d.fine_roughness ∧ d.fine_roughness ≤ 1
  draw_t : ∀ j, 0 ≤ a.ut j ∧ a.ut j < 1
  draw_p : ∀ j, 0 ≤ a.up j ∧ a.up j < 1
  phase : ∀ i, 0 ≤ S.p i
  min_angle : 0 ≤ S.min_angle ∧ S.min_angle ≤ Real.pi
  phase_pos : 0 < ∑ i, solidWeight S.p S.min_angle i
  rand_phi : ∀ i j, 0 ≤ S.rand_phi i j ∧ S.rand_phi i j < 1
  mu_scat : 0 < S.mu_scat
  mu_mie : ∀ m ∈ S.mu_scat_mie, 0 < m
  fine_step : 0 ≤ S.fine_roughness ∧ S.fine_roughness ≤ 1
  rand_step : ∀ i j, 0 ≤ S.rand_step i j ∧ S.rand_step i j < 1
  rand_mie : ∀ i, 0 ≤ S.rand_mie i ∧ S.rand_mie i < 1
  mu_abs : 0 ≤ S.mu_abs

private theorem val_fin (r : ℝ) : val (fin r) = r := rfl
private theorem valV_ofV3 (v : V3) : valV (ofV3 v) = v := rfl
private theorem valV_finV (x y z : ℝ) : valV (finV x y z) = ⟨x, y, z⟩ := rfl

private theorem cross_norm_le {u v : V3} (hu : u.normSq = 1) (hv : v.normSq = 1) : (V3.cross u v).norm ≤ 1 := by
  have h := lagrange u v
  rw [hu, hv] at h
  rw [V3.norm]
  refine Real.sqrt_le_iff.mpr ⟨zero_le_one, ?_⟩
  nlinarith [sq_nonneg (V3.dot u v)]

private theorem dot_abs_le {u v : V3} (hu : u.normSq = 1) (hv : v.normSq = 1) : |V3.dot u v| ≤ 1 := by
  have h := lagrange u v
  rw [hu, hv] at h
  rw [← sq_le_one_iff_abs_le_one]
  have : 0 ≤ (V3.cross u v).normSq := by
    simp only [V3.normSq, V3.dot]
    nlinarith [mul_self_nonneg (V3.cross u v).x, mul_self_nonneg (V3.cross u v).y, mul_self_nonneg (V3.cross u v).z]
  nlinarith

/-- What `initialize` delivers for such a run: finite numbers only, unit first directions, weights 1, start on the surface
`z = 0`, and roughness arrays that are both present (cosines in [-1,1]) or both absent. -/
theorem init_facts {a : Args nt} {S : Sampling nt num} {d : DetArgs} (H : FilmRun a S d) :
    ∃ p, initializeTraj a = .ok p ∧ (∀ n j, p.weight0 n j = 1) ∧
      (∀ n j, ∃ v, p.r0 n j = ofV3 v ∧ v.z = 0) ∧
      (∀ j, ∃ k, p.k0 0 j = ofV3 k ∧ k.normSq = 1) ∧
      (a.coarse_roughness = 0 → p.kz0_rot = none ∧ p.kz0_refl = none) ∧
      (a.coarse_roughness ≠ 0 → ∃ r s : Fin nt → ℝ, p.kz0_rot = some (fun j => fin (r j)) ∧
        p.kz0_refl = some (fun j => fin (s j)) ∧ ∀ j, |r j| ≤ 1) ∧
      (a.coarse_roughness = 0 → ∀ j, ∃ θ, Requested a.theta_data a.theta_min a.theta_max j θ ∧
        ∀ k, p.k0 0 j = ofV3 k → 0 ≤ k.z ∧ d.n_sample * Real.sqrt (1 - k.z ^ 2) = d.n_medium * |Real.sin θ|) := by
  have hm : 0 < a.n_medium := by rw [H.same_medium]; exact H.medium_pos
  have hs : 0 < a.n_sample := by rw [H.same_sample]; exact lt_of_lt_of_le H.medium_pos H.not_denser
  have hle : a.n_medium ≤ a.n_sample := by rw [H.same_medium, H.same_sample]; exact H.not_denser
  have hok : ∃ p, initializeTraj a = .ok p := by
    apply (C38_initialize_validation a).2.1 (by rw [H.film]; simp)
    rw [ne_eq, (C38_initialize_validation a).1]
    have h1 := H.theta_len
    have h2 := H.phi_len
    simp [H.film, H.no_diameter, h1, h2]
  obtain ⟨p, hp⟩ := hok
  refine ⟨p, hp, ?_⟩
  have hp' := hp
  unfold initializeTraj at hp'
  rw [H.film] at hp'
  simp only at hp'
  split at hp'
  · cases hp'
  rcases hθ : incidence a.theta_data a.theta_min a.theta_max a.ut with e | θ
  · rw [hθ] at hp'; simp only at hp'; cases hp'
  rw [hθ] at hp'
  simp only at hp'
  rcases hφ : incidence a.phi_data a.phi_min a.phi_max a.up with e | φ
  · rw [hφ] at hp'; simp only at hp'; cases hp'
  rw [hφ] at hp'
  simp only at hp'
  have hrow : ∀ n (j : Fin nt), ∃ v, firstRow (fun j => finV (a.ux j * a.spot_size) (a.uy j * a.spot_size) 0) n j = ofV3 v ∧ v.z = 0 := by
    intro n j
    by_cases hn : n = 0
    · subst hn; exact ⟨⟨_, _, 0⟩, rfl, rfl⟩
    · exact ⟨⟨0, 0, 0⟩, by rw [firstRow_succ _ hn]; rfl, rfl⟩
  by_cases hc : a.coarse_roughness = 0
  · rw [enter, if_pos hc] at hp'
    injection hp' with hp'
    subst hp'
    have hin : ∀ j, a.n_medium * |Real.sin (θ j)| ≤ a.n_sample := fun j => by
      have := Real.abs_sin_le_one (θ j)
      nlinarith
    have hk : ∀ j, firstRow (fun j => direction (Root.refraction1 (fin (θ j)) (XF.abs (fin a.n_medium)) (XF.abs (fin a.n_sample)))
        (fin (Real.cos (φ j))) (fin (Real.sin (φ j)))) 0 j = ofV3 ⟨a.n_medium / a.n_sample * Real.sin (θ j) * Real.cos (φ j),
          a.n_medium / a.n_sample * Real.sin (θ j) * Real.sin (φ j), Real.sqrt (1 - (a.n_medium / a.n_sample * Real.sin (θ j)) ^ 2)⟩ := by
      intro j
      exact (firstRow_zero _ _).trans (direction_refr hs (hin j) hm)
    refine ⟨fun _ _ => rfl, fun n j => hrow n j, ?_, fun _ => ⟨rfl, rfl⟩, fun h => absurd hc h, ?_⟩
    · intro j
      exact ⟨_, hk j, (refractedAt_z hs (hin j) hm).1⟩
    · intro _ j
      refine ⟨θ j, incidence_requested hθ H.theta_range H.draw_t j, ?_⟩
      intro k hkk
      have e := (hk j).symm.trans hkk
      have ez : k.z = Real.sqrt (1 - (a.n_medium / a.n_sample * Real.sin (θ j)) ^ 2) := by
        have := congrArg (fun v : XV => val v.z) e
        simpa [ofV3, finV, val] using this.symm
      have hle1 : |a.n_medium / a.n_sample * Real.sin (θ j)| ≤ 1 := by
        rw [abs_mul, abs_of_pos (div_pos hm hs), div_mul_eq_mul_div, div_le_one hs]; exact hin j
      have hsq : (a.n_medium / a.n_sample * Real.sin (θ j)) ^ 2 ≤ 1 := by rw [sq_le_one_iff_abs_le_one]; exact hle1
      rw [ez]
      refine ⟨Real.sqrt_nonneg _, ?_⟩
      rw [Real.sq_sqrt (by linarith), show 1 - (1 - (a.n_medium / a.n_sample * Real.sin (θ j)) ^ 2) =
        (a.n_medium / a.n_sample * Real.sin (θ j)) ^ 2 by ring, Real.sqrt_sq_eq_abs, abs_mul,
        abs_of_pos (div_pos hm hs), ← H.same_medium, ← H.same_sample]
      field_simp
  · rw [enter, if_neg hc, if_neg (by rw [H.film]; simp)] at hp'
    injection hp' with hp'
    subst hp'
    have key : ∀ j, ∃ k', coarseEnter (ofV3 (polar (θ j) (φ j))) a.n_medium |a.n_sample| (a.theta_a j) =
        (ofV3 k', fin (V3.dot (polar (θ j) (φ j)) (facetNormal (a.theta_a j))),
          fin (mirrored (facetNormal (a.theta_a j)) (polar (θ j) (φ j))).z) ∧ k'.normSq = 1 := by
      intro j
      have hb : a.n_medium * (V3.cross (facetNormal (a.theta_a j)) (polar (θ j) (φ j))).norm ≤ |a.n_sample| := by
        have := cross_norm_le (facet_unit (a.theta_a j)) (polar_unit (θ j) (φ j))
        rw [abs_of_pos hs]; nlinarith
      obtain ⟨k', h1, h2, _⟩ := C41_coarse_snell_partial (polar_unit (θ j) (φ j)) (a := a.theta_a j) hm (abs_pos.mpr hs.ne') hb
      exact ⟨k', h1, h2⟩
    choose k' hk1 hk2 using key
    have hdir : ∀ j, direction (fin (θ j)) (fin (Real.cos (φ j))) (fin (Real.sin (φ j))) = ofV3 (polar (θ j) (φ j)) := fun j => rfl
    refine ⟨fun _ _ => rfl, fun n j => hrow n j, ?_, fun h => absurd h hc, fun _ => ?_, fun h => absurd h hc⟩
    · intro j
      refine ⟨k' j, ?_, hk2 j⟩
      refine (firstRow_zero _ _).trans ?_
      exact congrArg Prod.fst (hk1 j)
    · refine ⟨fun j => V3.dot (polar (θ j) (φ j)) (facetNormal (a.theta_a j)), fun j => (mirrored (facetNormal (a.theta_a j)) (polar (θ j) (φ j))).z, ?_, ?_, ?_⟩
      · simp only [hdir, hk1]
      · simp only [hdir, hk1]
      · intro j; exact dot_abs_le (polar_unit _ _) (facet_unit _)

theorem step_real {a : Args nt} {S : Sampling nt num} {d : DetArgs} (H : FilmRun a S d) :
    ∃ s : ℕ → Fin nt → ℝ, sampleStep nt S.mu_scat S.mu_scat_mie S.fine_roughness S.rand_step S.rand_mie =
      .ok (fun i j => fin (s i j)) ∧ ∀ i j, 0 ≤ s i j ∧
        (0 < S.rand_step i j → (i = 0 → 0 < S.rand_mie j) → 0 < s i j) := by
  obtain ⟨step, hstep⟩ := (C34_sample_step_error S.mu_scat S.mu_scat_mie S.fine_roughness S.rand_step S.rand_mie).2 H.fine_step
  have hv := C34_sample_step_values S.mu_scat S.mu_scat_mie S.fine_roughness S.rand_step S.rand_mie H.mu_scat H.mu_mie
    H.rand_step H.rand_mie step hstep
  have key : ∀ i j, ∃ r : ℝ, step i j = fin r ∧ 0 ≤ r ∧
      (0 < S.rand_step i j → (i = 0 → 0 < S.rand_mie j) → 0 < r) := by
    intro i j
    have pos : ∀ (mu u r : ℝ), 0 ≤ r → Real.exp (-(mu * r)) = 1 - u → 0 < u → 0 < r := by
      intro mu u r h0 he hu
      rcases h0.lt_or_eq with h | h
      · exact h
      · rw [← h, mul_zero, neg_zero, Real.exp_zero] at he; linarith
    by_cases h : S.mu_scat_mie = none ∨ i ≠ 0 ∨ pyRound (nt * S.fine_roughness) ≤ j.val
    · obtain ⟨r, h1, h2, h3⟩ := (hv i j).2 h
      exact ⟨r, h1, h2, fun hu _ => pos _ _ r h2 h3 hu⟩
    · push Not at h
      obtain ⟨m, hm⟩ := Option.ne_none_iff_exists'.mp h.1
      obtain ⟨r, h1, h2, h3⟩ := (hv i j).1 m hm h.2.1 h.2.2
      exact ⟨r, h1, h2, fun _ hu => pos _ _ r h2 h3 (hu h.2.1)⟩
  choose s h1 h2 h3 using key
  refine ⟨s, ?_, fun i j => ⟨h2 i j, h3 i j⟩⟩
  rw [hstep]
  congr 1
  funext i j
  exact h1 i j

/-- What the simulation delivers for such a run. -/
theorem simulate_facts {a : Args nt} {S : Sampling nt num} {d : DetArgs} (H : FilmRun a S d) (nev : ℕ) :
    ∃ t, simulate (nev + 1) a S = .ok t ∧
      (∀ i j, i < nev + 1 → (t.direction i j).normSq = 1) ∧ (∀ i j, IsFraction (t.weight i j)) ∧
      (S.mu_abs = 0 → ∀ i j, t.weight i j = 1) ∧ (∀ i j, 0 < t.weight i j) ∧
      (∀ j, 0 < S.mu_abs → 0 < S.rand_step 0 j → 0 < S.rand_mie j → ∀ i, t.weight i j < 1) ∧
      (∀ j, (t.position 0 j).z = 0) ∧
      t.kz0_rot.isSome = t.kz0_refl.isSome ∧ (∀ k, t.kz0_rot = some k → ∀ j, |k j| ≤ 1) ∧
      (a.coarse_roughness = 0 → t.kz0_rot = none ∧ t.kz0_refl = none ∧
        ∀ j, ∃ θ, Requested a.theta_data a.theta_min a.theta_max j θ ∧ 0 ≤ (t.direction 0 j).z ∧
          d.n_sample * Real.sqrt (1 - (t.direction 0 j).z ^ 2) = d.n_medium * |Real.sin θ|) := by
  obtain ⟨p, hp, hw, hr, hk, hflat, hcoarse, hz⟩ := init_facts H
  obtain ⟨ang, hang, _, _, hcons⟩ := C35_sample_angles_1d (nt := nt) (nev + 1) S.p S.min_angle S.draw_theta S.rand_phi H.phase
    H.min_angle.1 H.min_angle.2 H.phase_pos H.rand_phi
  obtain ⟨s, hs, hs0⟩ := step_real H
  have hrun : simulate (nev + 1) a S = .ok
      { position := move (fun i j => valV (p.r0 i j)) s (scatter (nev + 1) (fun i j => valV (p.k0 i j)) ang.sintheta ang.costheta ang.sinphi ang.cosphi)
        direction := scatter (nev + 1) (fun i j => valV (p.k0 i j)) ang.sintheta ang.costheta ang.sinphi ang.cosphi
        weight := absorb p.weight0 S.mu_abs s
        kz0_rot := p.kz0_rot.map fun f j => val (f j)
        kz0_refl := p.kz0_refl.map fun f j => val (f j) } := by
    simp only [simulate, hp, hang, hs, bind, Except.bind, pure, Except.pure, val]
  refine ⟨_, hrun, ?_, ?_, ?_, ?_, ?_, ?_, ?_, ?_, ?_⟩
  · intro i j hi
    have := (C32_scatter_unit (nev + 1) (fun i j => valV (p.k0 i j)) ang.sintheta ang.costheta ang.sinphi ang.cosphi hcons).2.1 i j hi
    dsimp only
    rw [this]
    obtain ⟨k, h1, h2⟩ := hk j
    rw [h1, valV_ofV3, h2]
  · intro i j
    exact (C31_absorb_bounds p.weight0 S.mu_abs s H.mu_abs (fun n j => (hs0 n j).1) i j).1 (by rw [hw]; exact ⟨zero_le_one, le_rfl⟩)
  · intro h0 i j
    have := (C31_absorb_zero_add p.weight0 s 0 0).1
    dsimp only
    rw [h0, this, hw]
  · intro i j
    exact (C31_absorb_bounds p.weight0 S.mu_abs s H.mu_abs (fun n j => (hs0 n j).1) i j).2.2.1 (by rw [hw]; exact zero_lt_one)
  · intro j hmu hu hum i
    dsimp only
    rw [C31_absorb_beer_lambert, hw, one_mul, Real.exp_lt_one_iff]
    have h1 : s 0 j ≤ ∑ n ∈ Finset.range (i + 1), s n j :=
      Finset.single_le_sum (f := fun n => s n j) (fun n _ => (hs0 n j).1) (Finset.mem_range.mpr (Nat.succ_pos i))
    have h2 := (hs0 0 j).2 hu (fun _ => hum)
    have : 0 < S.mu_abs * ∑ n ∈ Finset.range (i + 1), s n j := mul_pos hmu (by linarith)
    linarith
  · intro j
    dsimp only
    rw [(C33_move_steps _ s _ 0 j).1]
    obtain ⟨v, h1, h2⟩ := hr 0 j
    rw [h1, valV_ofV3, h2]
  · by_cases hc : a.coarse_roughness = 0
    · simp [(hflat hc).1, (hflat hc).2]
    · obtain ⟨r, s', h1, h2, _⟩ := hcoarse hc
      simp [h1, h2]
  · intro k hk' j
    by_cases hc : a.coarse_roughness = 0
    · simp [(hflat hc).1] at hk'
    · obtain ⟨r, s', h1, h2, h3⟩ := hcoarse hc
      simp only [h1, Option.map_some, Option.some.injEq] at hk'
      rw [← hk']
      exact h3 j
  · intro hc
    refine ⟨by simp [(hflat hc).1], by simp [(hflat hc).2], ?_⟩
    intro j
    obtain ⟨θ, h1, h2⟩ := hz hc j
    obtain ⟨k, h3, h4⟩ := hk j
    refine ⟨θ, h1, ?_⟩
    dsimp only
    rw [(C32_scatter_unit (nev + 1) (fun i j => valV (p.k0 i j)) ang.sintheta ang.costheta ang.sinphi ang.cosphi hcons).1 j, h3, valV_ofV3]
    exact h2 k h3

private theorem selectTir_abs (col : ℕ → ℝ) (ev i : ℕ) : |selectTirTraj col ev i| = |col i| := by
  cases i with
  | zero => simp [selectTirTraj, tirInit]
  | succ i =>
    have key : ∀ (c o : ℝ) [Decidable (o = 0)], (o = -c ∨ o = c ∨ o = 0) → |if o = 0 then c else o| = |c| := by
      intro c o _ h
      split
      · rfl
      · rcases h with h | h | h
        · rw [h, abs_neg]
        · rw [h]
        · contradiction
    rw [selectTirTraj]
    apply key
    split
    · exact Or.inl rfl
    · unfold tirInit
      rw [if_neg (Nat.succ_ne_zero i)]
      split
      · exact Or.inr (Or.inl rfl)
      · exact Or.inr (Or.inr rfl)

private theorem angleFilm_abs {x y : ℝ} (h : |x| = |y|) : Weights.angleFilm (fin x) = Weights.angleFilm (fin y) := by
  simp only [Weights.angleFilm, abs_fin, h]

private theorem getAngles_abs {nev : ℕ} {k k' : Fin nev → Fin nt → ℝ} (h : ∀ e j, |k e j| = |k' e j|) (idx : Fin nt → ℕ) :
    Weights.getAnglesFilm k idx = Weights.getAnglesFilm k' idx := by
  funext j
  apply angleFilm_abs
  unfold Root.sel
  split
  · exact h _ _
  · rfl

/-- With the goniometer the call is the film call with the reflected event numbers filtered by the detector (the change of
sign of z directions by `shift_traj_tir` does not change any angle to the film's normal). -/
theorem gonio_eq (nev : ℕ) (d : DetArgs) (t : Trajs nt) :
    ∃ (det : Bool) (filter : (Fin nt → ℕ) → Fin nt → ℕ), (∀ f j, filter f j = f j ∨ filter f j = 0) ∧
      det = d.gonio.isSome ∧
      ∀ w, Simulation.calcReflTransFilm nev d { t with weight := w } = Weights.calcReflTransFilm (nev := nev) d.optics d.thickness d.z_low
        (fun i j => (t.position i j).z) (fun i j => (t.direction i j).z) (fun i j => w i j)
        t.kz0_rot t.kz0_refl det filter := by
  cases hg : d.gonio with
  | none => exact ⟨false, id, fun _ _ => Or.inl rfl, rfl, fun w => by simp only [Simulation.calcReflTransFilm, hg]⟩
  | some g =>
    obtain ⟨dt, dl, dd⟩ := g
    let z : Fin (nev + 2) → Fin nt → ℝ := fun i j => (t.position i j).z
    let kz : Fin (nev + 1) → Fin nt → ℝ := fun i j => (t.direction i j).z
    let X := Exits.findValidExitsFilm d.optics.n_tir d.n_medium d.thickness d.z_low z kz
    let idx := Exits.findEventIndices X.neg X.pos X.tir
    let z' : Fin (nev + 2) → Fin nt → ℝ :=
      fun i j => (shiftTrajTir (fun n => (t.position n j).z) (fun n => (t.direction n j).z) (idx.2.2.2 j)).1 i
    let kz' : Fin (nev + 1) → Fin nt → ℝ :=
      fun i j => (shiftTrajTir (fun n => (t.position n j).z) (fun n => (t.direction n j).z) (idx.2.2.2 j)).2 i
    have hk : ∀ e j, |kz' e j| = |kz e j| := fun e j => selectTir_abs _ _ _
    have hk0 : kz' 0 = kz 0 := by funext j; simp [kz', kz, shiftTrajTir, selectTirTraj, tirInit]
    refine ⟨true, fun ri => calcIndicesDetected ri (fun i j => (t.position i j).x) (fun i j => (t.position i j).y) z'
      (fun i j => (t.direction i j).x) (fun i j => (t.direction i j).y) kz' dt dl dd d.n_sample d.n_medium, ?_, rfl, fun w => ?_⟩
    · intro f j
      unfold calcIndicesDetected
      dsimp only
      split
      · exact Or.inl rfl
      · exact Or.inr rfl
    · simp only [Simulation.calcReflTransFilm, hg, gonioGeometry, Weights.calcReflTransFilm, if_true]
      congr 1
      funext _
      congr 1
      unfold Weights.filmGeometry
      have e1 : ∀ ri, Weights.getAnglesFilm kz' ri = Weights.getAnglesFilm kz ri := fun ri => getAngles_abs hk ri
      simp only [Weights.Geometry.mk.injEq]
      refine ⟨rfl, rfl, rfl, ?_, ?_, ?_, ?_⟩
      · exact congrArg (fun k => Weights.incAngleFilm d.n_medium d.optics.n_tir k t.kz0_rot) hk0
      · exact congrArg (fun (k : Fin nt → ℝ) j => Weights.angleFilm (fin (k j))) hk0
      · exact e1 _
      · exact e1 _

private theorem z_le_one {v : V3} (h : v.normSq = 1) : |v.z| ≤ 1 := by
  rw [← sq_le_one_iff_abs_le_one]
  simp only [V3.normSq, V3.dot] at h
  nlinarith [mul_self_nonneg v.x, mul_self_nonneg v.y]

theorem nTir_pos {d : DetArgs} (hs : 0 < d.n_sample) (hp : ∀ x, d.n_particle = some x → 0 < x)
    (hm : ∀ x, d.n_matrix = some x → 0 < x) (hf : 0 ≤ d.fine_roughness ∧ d.fine_roughness ≤ 1) : 0 < d.optics.n_tir := by
  show 0 < Weights.nTir _ _ _ _
  unfold Weights.nTir
  have conv : ∀ x, 0 < x → 0 < d.fine_roughness * x + (1 - d.fine_roughness) * d.n_sample := by
    intro x hx
    rcases hf.1.lt_or_eq with h | h
    · have := mul_pos h hx
      have := mul_nonneg (sub_nonneg.mpr hf.2) hs.le
      linarith
    · rw [← h]; linarith
  cases h1 : d.n_particle with
  | none => exact hs
  | some p =>
    cases h2 : d.n_matrix with
    | none => exact hs
    | some m =>
      dsimp only
      split
      · exact conv m (hm m h2)
      · exact conv p (hp p h1)

/-- The index used for total reflection is at least the sample's. -/
theorem nTir_ge {d : DetArgs} (hf0 : 0 ≤ d.fine_roughness ∧ d.fine_roughness ≤ 1)
    (hfine : d.fine_roughness = 0 ∨ ∀ p m, d.n_particle = some p → d.n_matrix = some m → d.n_sample ≤ max p m) :
    d.n_sample ≤ d.optics.n_tir := by
  show d.n_sample ≤ Weights.nTir _ _ _ _
  unfold Weights.nTir
  cases hp : d.n_particle with
  | none => exact le_rfl
  | some p =>
    cases hm : d.n_matrix with
    | none => exact le_rfl
    | some m =>
      dsimp only
      split
      · next h =>
        rcases hfine with h0 | h0
        · rw [h0]; linarith
        · have := h0 p m hp hm
          rw [max_eq_right h.le] at this
          nlinarith
      · next h =>
        rcases hfine with h0 | h0
        · rw [h0]; linarith
        · have := h0 p m hp hm
          rw [max_eq_left (not_lt.mp h)] at this
          nlinarith

theorem filmOK_of {a : Args nt} {S : Sampling nt num} {d : DetArgs} (H : FilmRun a S d) {nev : ℕ} {t : Trajs nt}
    (h1 : ∀ i j, i < nev + 1 → (t.direction i j).normSq = 1) (h2 : ∀ i j, IsFraction (t.weight i j))
    (h3 : ∀ k, t.kz0_rot = some k → ∀ j, |k j| ≤ 1) {filter : (Fin nt → ℕ) → Fin nt → ℕ}
    (hf : ∀ f j, filter f j = f j ∨ filter f j = 0) :
    Weights.FilmOK (nev := nev) d.optics (fun i j => (t.direction i j).z) (fun i j => t.weight i j) t.kz0_rot filter where
  nt_pos := H.nt_pos
  medium := H.medium_pos
  tir := nTir_pos (lt_of_lt_of_le H.medium_pos H.not_denser) H.particle H.matrix H.fine
  front := H.front
  back := H.back
  kz1 := fun e j => z_le_one (h1 e j e.isLt)
  w01 := fun e j => h2 e j
  rot1 := h3
  filt := hf

/-- C95.  Every complete film simulation in the documented domain runs without an error, for every stream of random numbers,
number of events and of trajectories; reflectance and transmittance are both NaN, or non-negative numbers with sum at
most 1. -/
theorem C95_film_run_fractions {a : Args nt} {S : Sampling nt num} {d : DetArgs} (H : FilmRun a S d) (nev : ℕ) :
    ∃ rt, runFilm nev a S d = .ok rt ∧
      ((rt.R = nan ∧ rt.T = nan) ∨ ∃ R T : ℝ, rt.R = fin R ∧ rt.T = fin T ∧ 0 ≤ R ∧ 0 ≤ T ∧ R + T ≤ 1) := by
  obtain ⟨t, ht, h1, h2, _, _, _, _, hr, hr1, _⟩ := simulate_facts H nev
  obtain ⟨det, filter, hf, _, heq⟩ := gonio_eq nev d t
  have hrun : runFilm nev a S d = Simulation.calcReflTransFilm nev d t := by
    simp only [runFilm, ht, bind, Except.bind]
  rw [hrun, heq t.weight]
  refine C15_film_fractions _ _ _ hr (filmOK_of H h1 h2 hr1 ?_)
  intro f j
  split
  · exact hf f j
  · exact Or.inl rfl

/-- C95.  Without absorption, a flat surface, full-hemisphere detection: reflectance and transmittance add up to exactly 1
(or are both NaN).  The index used for total reflection is at least that of the sample whenever fine roughness is absent
or the denser constituent is denser than the sample. -/
theorem C95_film_run_lossless {a : Args nt} {S : Sampling nt num} {d : DetArgs} (H : FilmRun a S d) (nev : ℕ)
    (hflat : a.coarse_roughness = 0) (hmu : S.mu_abs = 0) (hg : d.gonio = none) (hdet : d.detection_angle = Real.pi / 2)
    (hfine : d.fine_roughness = 0 ∨ ∀ p m, d.n_particle = some p → d.n_matrix = some m → d.n_sample ≤ max p m) :
    ∃ rt, runFilm nev a S d = .ok rt ∧
      ((rt.R = nan ∧ rt.T = nan) ∨ ∃ R T : ℝ, rt.R = fin R ∧ rt.T = fin T ∧ 0 ≤ R ∧ 0 ≤ T ∧ R + T = 1) := by
  obtain ⟨t, ht, h1, h2, hw1, _, _, _, hr, hr1, hfl⟩ := simulate_facts H nev
  obtain ⟨det, filter, hf, hd, heq⟩ := gonio_eq nev d t
  rw [hg] at hd
  subst hd
  have hrun : runFilm nev a S d = Simulation.calcReflTransFilm nev d t := by
    simp only [runFilm, ht, bind, Except.bind]
  rw [hrun, heq t.weight]
  have hs : 0 < d.n_sample := lt_of_lt_of_le H.medium_pos H.not_denser
  have hns := nTir_ge H.fine hfine
  obtain ⟨hro, hre, _⟩ := hfl hflat
  have H1 := filmOK_of H h1 h2 hr1 (filter := id) (fun _ _ => Or.inl rfl)
  rw [hro] at H1
  rw [hro, hre]
  obtain ⟨rt, hrt, hc⟩ := C15_film_fractions (det := false) (filter := filter) d.thickness d.z_low
    (fun (i : Fin (nev + 2)) j => (t.position i j).z) (kz0_refl := none) rfl H1
  refine ⟨rt, hrt, ?_⟩
  rcases hc with hc | ⟨R, T, hR, hT, h3, h4, _⟩
  · exact Or.inl hc
  · exact Or.inr ⟨R, T, hR, hT, h3, h4, C16_lossless d.thickness d.z_low _ H1 hs hns hdet
      (fun e j => hw1 hmu e j) hrt hR hT⟩

/-- C95.  With absorption, on a flat surface without cover slips and goniometer, light not coming in at grazing angles: the
results are numbers (never NaN), as soon as one photon's first draws are not 0. -/
theorem C95_film_run_absorbing {a : Args nt} {S : Sampling nt num} {d : DetArgs} (H : FilmRun a S d) (nev : ℕ)
    (hflat : a.coarse_roughness = 0) (hmu : 0 < S.mu_abs) (hg : d.gonio = none) (hfine : d.fine_roughness = 0)
    (hfr : d.n_front = none) (hbk : d.n_back = none)
    (hgraz : ∀ (j : Fin nt) θ, Requested a.theta_data a.theta_min a.theta_max j θ → |Real.sin θ| < 1)
    (hdraw : ∃ j, 0 < S.rand_step 0 j ∧ 0 < S.rand_mie j) :
    ∃ rt R T, runFilm nev a S d = .ok rt ∧ rt.R = fin R ∧ rt.T = fin T ∧ 0 ≤ R ∧ 0 ≤ T ∧ R + T ≤ 1 := by
  obtain ⟨t, ht, h1, h2, _, _, hwlt, _, hr, hr1, hfl⟩ := simulate_facts H nev
  obtain ⟨det, filter, hf, hd, heq⟩ := gonio_eq nev d t
  rw [hg] at hd
  subst hd
  have hrun : runFilm nev a S d = Simulation.calcReflTransFilm nev d t := by
    simp only [runFilm, ht, bind, Except.bind]
  rw [hrun, heq t.weight]
  have hs : 0 < d.n_sample := lt_of_lt_of_le H.medium_pos H.not_denser
  have htir : d.optics.n_tir = d.n_sample := by
    show Weights.nTir _ _ _ _ = _
    unfold Weights.nTir
    rw [hfine]
    cases d.n_particle <;> cases d.n_matrix <;> simp
  obtain ⟨hro, hre, hin⟩ := hfl hflat
  have H1 := filmOK_of H h1 h2 hr1 (filter := id) (fun _ _ => Or.inl rfl)
  rw [hro] at H1
  rw [hro, hre]
  have hsin : ∀ j, d.n_sample * Real.sqrt (1 - (t.direction 0 j).z ^ 2) < d.n_medium := by
    intro j
    obtain ⟨θ, hθ, _, e⟩ := hin j
    rw [e]
    have := hgraz j θ hθ
    nlinarith [H.medium_pos]
  refine C18_film_finite_partial d.thickness d.z_low _ H1 hfr hbk (by rw [htir]; exact H.not_denser) ?_ ?_ ?_
  · intro j
    rw [htir]; exact hsin j
  · intro j h0
    have := hsin j
    have h0' : (t.direction 0 j).z = 0 := h0
    rw [h0'] at this
    norm_num at this
    linarith [H.not_denser]
  · obtain ⟨j, hj1, hj2⟩ := hdraw
    exact ⟨j, Or.inl fun e => hwlt j hmu hj1 hj2 e⟩

/-- One photon, vertical light, a film of index 3/2 in air, an isotropic phase function on three angles. -/
noncomputable def demoArgs : Args 1 :=
  ⟨1, 3 / 2, .film, 0, 0, none, 0, 0, none, 1, none, 0, fun _ => 0, fun _ => 0, fun _ => 0, fun _ => 0, fun _ => 0, fun _ => 0,
    fun _ => 0⟩

/-- See `demoArgs`. -/
noncomputable def demoSampling (mu_abs : ℝ) : Sampling 1 3 :=
  { p := fun _ => 1, min_angle := 0, draw_theta := fun _ _ => 1, rand_phi := fun _ _ => 0, mu_scat := 1, mu_scat_mie := none,
    fine_roughness := 0, rand_step := fun _ _ => 1 / 2, rand_mie := fun _ => 1 / 2, mu_abs := mu_abs }

/-- See `demoArgs`. -/
noncomputable def demoDet (gonio : Option (ℝ × ℝ × ℝ)) : DetArgs :=
  { n_medium := 1, n_sample := 3 / 2, thickness := 10, z_low := 0, n_front := none, n_back := none,
    detection_angle := Real.pi / 2, fine_roughness := 0, n_particle := none, n_matrix := none, gonio := gonio }

/-- Non-vacuity of C95: this run meets the hypotheses of all three theorems, with and without absorption and goniometer. -/
theorem demo_filmRun (mu : ℝ) (hmu : 0 ≤ mu) (g : Option (ℝ × ℝ × ℝ)) : FilmRun demoArgs (demoSampling mu) (demoDet g) where
  nt_pos := one_pos
  film := rfl
  no_diameter := rfl
  theta_len := fun l hl => (nomatch hl)
  phi_len := fun l hl => (nomatch hl)
  theta_range := le_rfl
  phi_range := le_rfl
  same_medium := rfl
  same_sample := rfl
  medium_pos := one_pos
  not_denser := by norm_num [demoDet]
  front := fun x hx => (nomatch hx)
  back := fun x hx => (nomatch hx)
  particle := fun x hx => (nomatch hx)
  matrix := fun x hx => (nomatch hx)
  fine := ⟨le_rfl, zero_le_one⟩
  draw_t := fun _ => ⟨le_rfl, one_pos⟩
  draw_p := fun _ => ⟨le_rfl, one_pos⟩
  phase := fun _ => zero_le_one
  min_angle := ⟨le_rfl, Real.pi_pos.le⟩
  phase_pos := by
    simp only [demoSampling, solidWeight, linspace, Fin.sum_univ_three]
    norm_num
    rw [show 2 * (Real.pi / 2) = Real.pi by ring, Real.sin_pi]
    norm_num
  rand_phi := fun _ _ => ⟨le_rfl, one_pos⟩
  mu_scat := one_pos
  mu_mie := fun m hm => (nomatch hm)
  fine_step := ⟨le_rfl, zero_le_one⟩
  rand_step := fun _ _ => by norm_num [demoSampling]
  rand_mie := fun _ => by norm_num [demoSampling]
  mu_abs := hmu

example : (∀ (j : Fin 1) θ, Requested demoArgs.theta_data demoArgs.theta_min demoArgs.theta_max j θ → |Real.sin θ| < 1) ∧
    ∃ j, 0 < (demoSampling 1).rand_step 0 j ∧ 0 < (demoSampling 1).rand_mie j := by
  refine ⟨?_, 0, by norm_num [demoSampling], by norm_num [demoSampling]⟩
  intro j θ h
  have h' : 0 ≤ θ ∧ θ ≤ 0 := h
  rw [le_antisymm h'.2 h'.1]
  simp

end Verif.Props
