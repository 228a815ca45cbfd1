import Verif.Props.Thickness

/-!
# C150: a film has no preferred place and no handedness
-/

namespace Verif.Props
noncomputable section
open Classical Verif.Spec Verif.Root Verif.Fresnel Verif.Exits Verif.Weights _root_.Verif.XF
open Verif.Simulation Verif.Traj Verif.Init
open Verif (XF PyErr)

variable {nt num : ℕ}

/-- Without a goniometer only depths, inclinations and weights count. -/
theorem depth_only (nev : ℕ) {d : DetArgs} (hg : d.gonio = none) {t t' : Trajs nt} (hz : ∀ i j, (t'.position i j).z = (t.position i j).z)
    (hk : ∀ i j, (t'.direction i j).z = (t.direction i j).z) (hw : t'.weight = t.weight) (h1 : t'.kz0_rot = t.kz0_rot)
    (h2 : t'.kz0_refl = t.kz0_refl) : Simulation.calcReflTransFilm nev d t' = Simulation.calcReflTransFilm nev d t := by
  simp only [Simulation.calcReflTransFilm, hg, hz, hk, hw, h1, h2]

theorem move_z (r r' k k' : ℕ → Fin nt → V3) (s : ℕ → Fin nt → ℝ) (hr : ∀ i j, (r' i j).z = (r i j).z) (hk : ∀ i j, (k' i j).z = (k i j).z)
    (i : ℕ) (j : Fin nt) : (move r' s k' i j).z = (move r s k i j).z := by
  have step : ∀ (r k : ℕ → Fin nt → V3) (i : ℕ) (j : Fin nt), (move r s k (i + 1) j).z = (move r s k i j).z + s i j * (k i j).z := by
    intro r k i j
    have := congrArg V3.z (C33_move_steps r s k i j).2
    simp only [V3.sub, V3.smul] at this
    linarith
  induction i with
  | zero => rw [(C33_move_steps r' s k' 0 j).1, (C33_move_steps r s k 0 j).1, hr]
  | succ i ih => rw [step, step, ih, hk]

/-- the same light, entering at other points -/
def elsewhere (x y : Fin nt → ℝ) (s : ℝ) (a : Args nt) : Args nt := { a with ux := x, uy := y, spot_size := s }

/-- C150.  The place where the light enters a film, and the size of the illuminated spot, do not change the result. -/
theorem C150_place (nev : ℕ) (a : Args nt) (S : Sampling nt num) (d : DetArgs) (hfilm : a.boundary = .film) (hg : d.gonio = none)
    (x y : Fin nt → ℝ) (s : ℝ) : runFilm nev (elsewhere x y s a) S d = runFilm nev a S d := by
  have herr : ∀ e, initializeTraj a = .error e → initializeTraj (elsewhere x y s a) = .error e := by
    intro e
    unfold initializeTraj enter
    simp only [elsewhere, hfilm]
    split
    · exact id
    · split
      · exact id
      · split
        · exact id
        · split
          · intro h; cases h
          · split
            · exact id
            · intro h; cases h
  have hok : ∀ p, initializeTraj a = .ok p → ∃ r, initializeTraj (elsewhere x y s a) = .ok { p with r0 := r } ∧
      ∀ i j, (valV (r i j)).z = (valV (p.r0 i j)).z := by
    intro p
    have hrow : ∀ i (j : Fin nt), (valV (firstRow (fun j => Geometry.finV (x j * s) (y j * s) 0) i j)).z =
        (valV (firstRow (fun j => Geometry.finV (a.ux j * a.spot_size) (a.uy j * a.spot_size) 0) i j)).z := by
      intro i j
      unfold firstRow
      split <;> rfl
    unfold initializeTraj enter
    simp only [elsewhere, hfilm]
    split
    · intro h; cases h
    · split
      · intro h; cases h
      · split
        · intro h; cases h
        · split
          · intro h; injection h with h; subst h
            exact ⟨_, rfl, hrow⟩
          · split
            · intro h; cases h
            · intro h; injection h with h; subst h
              exact ⟨_, rfl, hrow⟩
  rcases hp : initializeTraj a with e | p
  · simp only [runFilm, simulate, hp, herr e hp, Bind.bind, Except.bind]
  obtain ⟨r, hp', hr⟩ := hok p hp
  rcases hang : sampleAngles1 (nev + 1) S.p S.min_angle S.draw_theta S.rand_phi with e | ang
  · simp only [runFilm, simulate, hp, hp', hang, Bind.bind, Except.bind]
  rcases hs : sampleStep nt S.mu_scat S.mu_scat_mie S.fine_roughness S.rand_step S.rand_mie with e | st
  · simp only [runFilm, simulate, hp, hp', hang, hs, Bind.bind, Except.bind]
  simp only [runFilm, simulate, hp, hp', hang, hs, Bind.bind, Except.bind, Pure.pure, Except.pure]
  exact depth_only nev hg (fun i j => move_z _ _ _ _ _ hr (fun _ _ => rfl) i j) (fun _ _ => rfl) rfl rfl rfl

/-- mirror image in the plane y = 0 -/
def mirrorV (v : V3) : V3 := ⟨v.x, -v.y, v.z⟩

/-- the mirror image of the incident light: places and azimuths -/
def mirrorArgs (a : Args nt) : Args nt :=
  { a with uy := fun j => -a.uy j, phi_min := -a.phi_max, phi_max := -a.phi_min, phi_data := a.phi_data.map (List.map Neg.neg)
           up := fun j => 1 - a.up j }

/-- the mirror image of the scattering events: every azimuth reversed -/
def mirrorSampling (S : Sampling nt num) : Sampling nt num := { S with rand_phi := fun i j => 1 - S.rand_phi i j }

theorem val_infOfSign (s : ℝ) : val (infOfSign s) = 0 := by
  unfold infOfSign
  split_ifs <;> rfl

theorem val_neg_mul (x : XF) (s : ℝ) : val (x * fin (-s)) = -val (x * fin s) := by
  cases x with
  | fin r => show r * -s = -(r * s); ring
  | nan => show (0:ℝ) = -0; simp
  | pinf =>
    show val (infOfSign (-s)) = -val (infOfSign s)
    rw [val_infOfSign, val_infOfSign, neg_zero]
  | ninf =>
    show val (infOfSign (- -s)) = -val (infOfSign (-s))
    rw [val_infOfSign, val_infOfSign, neg_zero]

theorem mirror_incidence (a : Args nt) : incidence (a.phi_data.map (List.map Neg.neg)) (-a.phi_max) (-a.phi_min) (fun j => 1 - a.up j) =
    (incidence a.phi_data a.phi_min a.phi_max a.up).map fun φ j => -φ j := by
  unfold incidence
  cases a.phi_data with
  | none =>
    simp only [Option.map_none, Except.map, uniform]
    congr 1
    funext j
    ring
  | some l =>
    simp only [Option.map_some, List.length_map]
    split
    · rfl
    · simp only [Except.map, List.get_eq_getElem, List.getElem_map, Fin.val_cast]

theorem mirror_turn (st ct sp cp : ℝ) (k : V3) : turn st ct (-sp) cp (mirrorV k) = mirrorV (turn st ct sp cp k) := by
  simp only [turn, mirrorV, V3.mk.injEq]
  refine ⟨by ring, by ring, trivial⟩

theorem mirror_scatter (n : ℕ) (k k' : ℕ → Fin nt → V3) (st ct sp cp : ℕ → Fin nt → ℝ) (hk : ∀ i j, k' i j = mirrorV (k i j)) :
    ∀ i j, scatter n k' st ct (fun i j => -sp i j) cp i j = mirrorV (scatter n k st ct sp cp i j) := by
  intro i
  have A := scatter_loop k' st ct (fun i j => -sp i j) cp (n - 1)
  have B := scatter_loop k st ct sp cp (n - 1)
  unfold scatter
  induction i with
  | zero => intro j; rw [A.1, B.1]; exact hk 0 j
  | succ i ih =>
    intro j
    by_cases h : i < n - 1
    · rw [A.2.1 i h j, B.2.1 i h j, ih j, mirror_turn]
    · rw [A.2.2 (i + 1) (by omega), B.2.2 (i + 1) (by omega)]
      exact hk _ j

/-- C150.  A smooth film has no handedness: the mirror image of a run gives the same result. -/
theorem C150_mirror (nev : ℕ) (a : Args nt) (S : Sampling nt num) (d : DetArgs) (hfilm : a.boundary = .film) (hflat : a.coarse_roughness = 0)
    (hg : d.gonio = none) : runFilm nev (mirrorArgs a) (mirrorSampling S) d = runFilm nev a S d := by
  have hang : ∀ n, sampleAngles1 n S.p S.min_angle S.draw_theta (fun i j => 1 - S.rand_phi i j) =
      (sampleAngles1 n S.p S.min_angle S.draw_theta S.rand_phi).map fun A =>
        { A with sinphi := fun i j => -A.sinphi i j, phi := fun i j => 2 * Real.pi * (1 - S.rand_phi i j) } := by
    intro n
    unfold sampleAngles1
    dsimp only
    split_ifs
    · simp only [Except.map, mkAngles]
      congr 2
      · funext i j
        rw [mul_sub, mul_one, Real.sin_two_pi_sub]
      · funext i j
        rw [mul_sub, mul_one, Real.cos_two_pi_sub]
    · rfl
  have hrow : ∀ (v : Fin nt → XF) (φ : Fin nt → ℝ) (i : ℕ) (j : Fin nt),
      valV (firstRow (fun j => direction (v j) (fin (Real.cos (-φ j))) (fin (Real.sin (-φ j)))) i j) =
        mirrorV (valV (firstRow (fun j => direction (v j) (fin (Real.cos (φ j))) (fin (Real.sin (φ j)))) i j)) := by
    intro v φ i j
    unfold firstRow
    split_ifs
    · simp only [valV, direction, mirrorV, Real.cos_neg, Real.sin_neg, val_neg_mul]
    · simp [valV, mirrorV, Geometry.finV, val]
  have hpos : ∀ (u v : Fin nt → ℝ) (i : ℕ) (j : Fin nt), (valV (firstRow (fun j => Geometry.finV (a.ux j * a.spot_size) (u j) 0) i j)).z =
      (valV (firstRow (fun j => Geometry.finV (a.ux j * a.spot_size) (v j) 0) i j)).z := by
    intro u v i j
    unfold firstRow
    split <;> rfl
  have hinit : (∀ e, initializeTraj a = .error e → initializeTraj (mirrorArgs a) = .error e) ∧
      ∀ p, initializeTraj a = .ok p → ∃ r k, initializeTraj (mirrorArgs a) = .ok { p with r0 := r, k0 := k } ∧
        (∀ i j, (valV (r i j)).z = (valV (p.r0 i j)).z) ∧ ∀ i j, valV (k i j) = mirrorV (valV (p.k0 i j)) := by
    unfold initializeTraj enter
    simp only [mirrorArgs, hfilm, hflat, mirror_incidence, if_true]
    split_ifs with h
    · exact ⟨fun e h => h, fun p h => by cases h⟩
    · rcases incidence a.theta_data a.theta_min a.theta_max a.ut with e | θ
      · exact ⟨fun e h => h, fun p h => by cases h⟩
      · rcases incidence a.phi_data a.phi_min a.phi_max a.up with e | φ
        · exact ⟨fun e h => h, fun p h => by cases h⟩
        · refine ⟨fun e h => by simp at h, fun p h => ?_⟩
          simp only [Except.ok.injEq] at h
          subst h
          exact ⟨_, _, rfl, hpos _ _, hrow _ _⟩
  rcases hp : initializeTraj a with e | p
  · simp only [runFilm, simulate, hp, hinit.1 e hp, Bind.bind, Except.bind]
  obtain ⟨r, k, hp', hr, hk⟩ := hinit.2 p hp
  have hang' := hang (nev + 1)
  rcases hA : sampleAngles1 (nev + 1) S.p S.min_angle S.draw_theta S.rand_phi with e | ang
  · rw [hA] at hang'
    simp only [runFilm, simulate, mirrorSampling, hp, hp', hA, hang', Bind.bind, Except.bind, Except.map]
  rw [hA] at hang'
  rcases hs : sampleStep nt S.mu_scat S.mu_scat_mie S.fine_roughness S.rand_step S.rand_mie with e | st
  · simp only [runFilm, simulate, mirrorSampling, hp, hp', hA, hang', hs, Bind.bind, Except.bind, Except.map]
  simp only [runFilm, simulate, mirrorSampling, hp, hp', hA, hang', hs, Bind.bind, Except.bind, Except.map, Pure.pure, Except.pure]
  have hsc := mirror_scatter (nev + 1) (fun i j => valV (p.k0 i j)) (fun i j => valV (k i j)) ang.sintheta ang.costheta ang.sinphi ang.cosphi hk
  exact depth_only nev hg (fun i j => move_z _ _ _ _ _ hr (fun i j => by rw [hsc]; rfl) i j) (fun i j => by dsimp only; rw [hsc]; rfl) rfl rfl rfl

/-- Non-vacuity of C150: the demonstration run, at another place, and its mirror image; they differ from it in the positions and directions of
the photons. -/
example : runFilm 5 (elsewhere (fun _ => 1) (fun _ => 1 / 2) 100 demoArgs) (demoSampling 1) (demoDet none) =
      runFilm 5 demoArgs (demoSampling 1) (demoDet none) ∧
    runFilm 5 (mirrorArgs demoArgs) (mirrorSampling { demoSampling 1 with rand_phi := fun _ _ => 1 / 4 }) (demoDet none) =
      runFilm 5 demoArgs { demoSampling 1 with rand_phi := fun _ _ => 1 / 4 } (demoDet none) :=
  ⟨C150_place 5 _ _ _ rfl rfl _ _ _, C150_mirror 5 _ _ _ rfl rfl rfl⟩

end
end Verif.Props
