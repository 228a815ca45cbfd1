import Verif.Props.Batches
import Verif.Props.ErrorBound

/-!
# C144 for films: batches
-/

namespace Verif.Props
noncomputable section
open Classical Verif.Spec Verif.Root Verif.Fresnel Verif.Exits Verif.Weights _root_.Verif.XF
open Verif.Simulation Verif.Traj Verif.Init
open Verif (XF PyErr)

variable {nt num m : ℕ}

theorem pick_filmRun {a : Args nt} {S : Sampling nt num} {d : DetArgs} (H : FilmRun a S d) (hθ : a.theta_data = none)
    (hφ : a.phi_data = none) (hm : 0 < m) (σ : Fin m → Fin nt) : FilmRun (pickArgs σ a) (pickSampling σ S) d :=
  { nt_pos := hm, film := H.film, no_diameter := H.no_diameter
    theta_len := fun l hl => by
      have : a.theta_data = some l := hl
      rw [hθ] at this; exact (nomatch this)
    phi_len := fun l hl => by
      have : a.phi_data = some l := hl
      rw [hφ] at this; exact (nomatch this)
    theta_range := H.theta_range, phi_range := H.phi_range, same_medium := H.same_medium, same_sample := H.same_sample
    medium_pos := H.medium_pos, not_denser := H.not_denser, front := H.front, back := H.back, particle := H.particle, matrix := H.matrix
    fine := H.fine, draw_t := fun j => H.draw_t (σ j), draw_p := fun j => H.draw_p (σ j), phase := H.phase, min_angle := H.min_angle
    phase_pos := H.phase_pos, rand_phi := fun i j => H.rand_phi i (σ j), mu_scat := H.mu_scat, mu_mie := H.mu_mie
    fine_step := H.fine_step, rand_step := fun i j => H.rand_step i (σ j), rand_mie := H.rand_mie, mu_abs := H.mu_abs }

theorem simulate_pick_film {a : Args nt} {S : Sampling nt num} {d : DetArgs} (H : FilmRun a S d) (hflat : a.coarse_roughness = 0)
    (hθ : a.theta_data = none) (hφ : a.phi_data = none) (hmie : S.mu_scat_mie = none ∨ S.fine_roughness = 0) (σ : Fin m → Fin nt) (nev : ℕ) :
    simulate nev (pickArgs σ a) (pickSampling σ S) = (simulate nev a S).map (pickTrajs σ) := by
  have hstep := step_pick σ S.mu_scat S.mu_scat_mie S.fine_roughness S.rand_step S.rand_mie hmie
  have hang := angles_pick σ nev S.p S.min_angle S.draw_theta S.rand_phi
  unfold simulate
  have hi : initializeTraj (pickArgs σ a) = (initializeTraj a).map fun p =>
      ⟨fun i j => p.r0 i (σ j), fun i j => p.k0 i (σ j), fun i j => p.weight0 i (σ j), p.kz0_rot.map fun f j => f (σ j),
        p.kz0_refl.map fun f j => f (σ j)⟩ := by
    unfold initializeTraj
    simp only [pickArgs, H.film, H.no_diameter, hθ, hφ, incidence, enter, if_pos hflat]
    rfl
  rw [hi]
  simp only [pickSampling, hstep, hang]
  cases initializeTraj a with
  | error e => rfl
  | ok p =>
    cases sampleAngles1 nev S.p S.min_angle S.draw_theta S.rand_phi with
    | error e => rfl
    | ok ang =>
      cases sampleStep nt S.mu_scat S.mu_scat_mie S.fine_roughness S.rand_step S.rand_mie with
      | error e => rfl
      | ok s =>
        simp only [Except.map, bind, Except.bind, pure, Except.pure, pickTrajs]
        rw [scatter_pick σ nev (fun i j => valV (p.k0 i j)) ang.sintheta ang.costheta ang.sinphi ang.cosphi,
          move_pick σ (fun i j => valV (p.r0 i j)) (fun i j => val (s i j))]
        simp only [Option.map_map]
        rfl

/-- light of a photon that is sent back at the faces of the film -/
def photonBack (p : Photon) : ℝ := p.outR * (1 - p.escR) + p.outT * (1 - p.escT)

/-- light of a photon that is counted in the reflectance whatever the other photons do, all escaping light being seen -/
def ownR (p : Photon) : ℝ := p.outR * p.escR + (if p.seenInc then 1 - p.enter else 0) + p.trapped / 2

/-- light of a photon that is counted in the transmittance whatever the other photons do, all escaping light being seen -/
def ownT (p : Photon) : ℝ := p.outT * p.escT + p.trapped / 2

theorem own_bounds {N : ℕ} {p : Fin N → Photon} (hN : 0 < N) (ok : ∀ j, PhotonOK (p j)) (hsR : ∀ j, (p j).escR ≠ 0 → (p j).seenR)
    (hsT : ∀ j, (p j).escT ≠ 0 → (p j).seenT) (hk : Photon.known p ≠ 0) :
    (∑ j, ownR (p j) ≤ N * ∑ j, Photon.refl p j ∧ N * ∑ j, Photon.refl p j ≤ ∑ j, ownR (p j) + ∑ j, photonBack (p j)) ∧
    (∑ j, ownT (p j) ≤ N * ∑ j, Photon.trans p j ∧ N * ∑ j, Photon.trans p j ≤ ∑ j, ownT (p j) + ∑ j, photonBack (p j)) := by
  have hn : (N : ℝ) ≠ 0 := by exact_mod_cast hN.ne'
  have eR : ∀ j, (if (p j).seenR then (p j).outR * (p j).escR else 0) = (p j).outR * (p j).escR := fun j => by
    by_cases h : (p j).escR = 0
    · simp [h]
    · rw [if_pos (hsR j h)]
  have eT : ∀ j, (if (p j).seenT then (p j).outT * (p j).escT else 0) = (p j).outT * (p j).escT := fun j => by
    by_cases h : (p j).escT = 0
    · simp [h]
    · rw [if_pos (hsT j h)]
  have h9 : (0:ℝ) < 1 / 10 ^ 9 := by norm_num
  have sR : Photon.shareR p = 1 := by
    unfold Photon.shareR Photon.escapedR
    rw [Finset.sum_congr rfl fun j _ => eR j]
    exact div_self (lt_max_of_lt_right h9).ne'
  have sT : Photon.shareT p = 1 := by
    unfold Photon.shareT Photon.escapedT
    rw [Finset.sum_congr rfl fun j _ => eT j]
    exact div_self (lt_max_of_lt_right h9).ne'
  have a0 : 0 ≤ Photon.absorbed p := Finset.sum_nonneg fun j _ => by linarith [(ok j).sum]
  have r0 : 0 ≤ Photon.escapedR p := Finset.sum_nonneg fun j _ => mul_nonneg (ok j).outR.1 (ok j).escR.1
  have t0 : 0 ≤ Photon.escapedT p := Finset.sum_nonneg fun j _ => mul_nonneg (ok j).outT.1 (ok j).escT.1
  have kp : 0 < Photon.known p := lt_of_le_of_ne (by unfold Photon.known; linarith) (Ne.symm hk)
  have fr0 : 0 ≤ Photon.escapedR p / Photon.known p := div_nonneg r0 kp.le
  have ft0 : 0 ≤ Photon.escapedT p / Photon.known p := div_nonneg t0 kp.le
  have fr1 : Photon.escapedR p / Photon.known p ≤ 1 := div_le_one_of_le₀ (by unfold Photon.known; linarith) kp.le
  have ft1 : Photon.escapedT p / Photon.known p ≤ 1 := div_le_one_of_le₀ (by unfold Photon.known; linarith) kp.le
  have b1 : ∀ j, 0 ≤ (p j).outR * (1 - (p j).escR) := fun j => mul_nonneg (ok j).outR.1 (by linarith [(ok j).escR.2])
  have b2 : ∀ j, 0 ≤ (p j).outT * (1 - (p j).escT) := fun j => mul_nonneg (ok j).outT.1 (by linarith [(ok j).escT.2])
  have key : ∀ (x y f g : ℝ), 0 ≤ x → 0 ≤ y → 0 ≤ f → 0 ≤ g → f ≤ 1 → g ≤ 1 → 0 ≤ x * f + y * g ∧ x * f + y * g ≤ x + y := by
    intro x y f g hx hy hf hg hf1 hg1
    exact ⟨by positivity, by nlinarith⟩
  refine ⟨?_, ?_⟩
  · have e : (N:ℝ) * ∑ j, Photon.refl p j = ∑ j, (ownR (p j) + ((p j).outR * (1 - (p j).escR) * (Photon.escapedR p / Photon.known p) +
        (p j).outT * (1 - (p j).escT) * (Photon.escapedT p / Photon.known p))) := by
      rw [Finset.mul_sum]
      refine Finset.sum_congr rfl fun j _ => ?_
      unfold Photon.refl ownR
      rw [eR, sR, mul_div_cancel₀ _ hn]
      ring
    rw [e, ← Finset.sum_add_distrib]
    refine ⟨Finset.sum_le_sum fun j _ => ?_, Finset.sum_le_sum fun j _ => ?_⟩
    · linarith [(key _ _ _ _ (b1 j) (b2 j) fr0 ft0 fr1 ft1).1]
    · have := (key _ _ _ _ (b1 j) (b2 j) fr0 ft0 fr1 ft1).2
      unfold photonBack
      linarith
  · have e : (N:ℝ) * ∑ j, Photon.trans p j = ∑ j, (ownT (p j) + ((p j).outT * (1 - (p j).escT) * (Photon.escapedR p / Photon.known p) +
        (p j).outR * (1 - (p j).escR) * (Photon.escapedT p / Photon.known p))) := by
      rw [Finset.mul_sum]
      refine Finset.sum_congr rfl fun j _ => ?_
      unfold Photon.trans ownT
      rw [eT, sT, mul_div_cancel₀ _ hn]
      ring
    rw [e, ← Finset.sum_add_distrib]
    refine ⟨Finset.sum_le_sum fun j _ => ?_, Finset.sum_le_sum fun j _ => ?_⟩
    · linarith [(key _ _ _ _ (b2 j) (b1 j) fr0 ft0 fr1 ft1).1]
    · have := (key _ _ _ _ (b2 j) (b1 j) fr0 ft0 fr1 ft1).2
      unfold photonBack
      linarith

/-- C144 (films), what holds.  A run of a smooth film, seen by a detector that covers the hemispheres, differs from the weighted average of
its two batches by at most the light that its photons bring back into the film at the faces. -/
theorem C144_film_batches_partial {n₁ n₂ : ℕ} {a : Args (n₁ + n₂)} {S : Sampling (n₁ + n₂) num} {d : DetArgs} (H : FilmRun a S d)
    (hflat : a.coarse_roughness = 0) (hθ : a.theta_data = none) (hφ : a.phi_data = none) (hmie : S.mu_scat_mie = none ∨ S.fine_roughness = 0)
    (hfine : d.fine_roughness = 0) (hg : d.gonio = none) (hth : d.z_low < d.thickness) (hdet : d.detection_angle = Real.pi / 2)
    (h₁ : 0 < n₁) (h₂ : 0 < n₂) (nev : ℕ) {t : Trajs (n₁ + n₂)} (ht : simulate (nev + 1) a S = .ok t)
    {rt : RT (n₁ + n₂)} {rt₁ : RT n₁} {rt₂ : RT n₂} {R R₁ R₂ T T₁ T₂ : ℝ}
    (hrt : runFilm nev a S d = .ok rt)
    (hrt₁ : runFilm nev (pickArgs (Fin.castAdd n₂) a) (pickSampling (Fin.castAdd n₂) S) d = .ok rt₁)
    (hrt₂ : runFilm nev (pickArgs (Fin.natAdd n₁) a) (pickSampling (Fin.natAdd n₁) S) d = .ok rt₂)
    (hR : rt.R = fin R) (hR₁ : rt₁.R = fin R₁) (hR₂ : rt₂.R = fin R₂) (hT : rt.T = fin T) (hT₁ : rt₁.T = fin T₁) (hT₂ : rt₂.T = fin T₂) :
    let back := (∑ j, photonBack (simPhoton nev d t j)) / ((n₁ + n₂ : ℕ) : ℝ)
    |R - (n₁ * R₁ + n₂ * R₂) / (n₁ + n₂)| ≤ back ∧ |T - (n₁ * T₁ + n₂ * T₂) / (n₁ + n₂)| ≤ back := by
  intro back
  have htir : d.optics.n_tir = d.n_sample := by
    show Weights.nTir _ _ _ _ = _
    unfold Weights.nTir
    rw [hfine]
    cases d.n_particle <;> cases d.n_matrix <;> simp
  have hs : 0 < d.n_sample := lt_of_lt_of_le H.medium_pos H.not_denser
  have run : ∀ {m : ℕ} (hm : 0 < m) (σ : Fin m → Fin (n₁ + n₂)) {r : RT m} {x y : ℝ}, runFilm nev (pickArgs σ a) (pickSampling σ S) d = .ok r →
      r.R = fin x → r.T = fin y →
      ((∑ j, ownR (simPhoton nev d t (σ j)) ≤ m * x ∧ m * x ≤ ∑ j, ownR (simPhoton nev d t (σ j)) + ∑ j, photonBack (simPhoton nev d t (σ j))) ∧
       (∑ j, ownT (simPhoton nev d t (σ j)) ≤ m * y ∧ m * y ≤ ∑ j, ownT (simPhoton nev d t (σ j)) + ∑ j, photonBack (simPhoton nev d t (σ j)))) := by
    intro m hm σ r x y hr hx hy
    have hsim := simulate_pick_film H hflat hθ hφ hmie σ (nev + 1)
    rw [ht] at hsim
    obtain ⟨ok, r', hr', hcase⟩ := run_photons (pick_filmRun H hθ hφ hm σ) hflat hfine hg hth hsim
    rw [hr] at hr'
    injection hr' with hr'
    subst hr'
    have e : simPhoton nev d (pickTrajs σ t) = fun j => simPhoton nev d t (σ j) := rfl
    rw [e] at hcase
    rcases hcase with ⟨-, h, -⟩ | ⟨hk, h1, h2⟩
    · rw [hx] at h; exact (nomatch h)
    · rw [hx, fin_inj] at h1
      rw [hy, fin_inj] at h2
      subst h1 h2
      have seen := fun j => smooth_all_seen (o := d.optics.medium) (nev := nev) htir.symm (by show 0 < d.optics.n_tir; rw [htir]; exact hs)
        H.medium_pos hdet d.z_low d.thickness (fun e => (t.position e (σ j)).z) (fun e => (t.direction e (σ j)).z) (fun e => t.weight e (σ j))
      exact own_bounds hm (fun j => ok j) (fun j => (seen j).1) (fun j => (seen j).2) hk
  obtain ⟨⟨a1, a2⟩, ⟨a3, a4⟩⟩ := run (by omega : 0 < n₁ + n₂) id hrt hR hT
  obtain ⟨⟨b1, b2⟩, ⟨b3, b4⟩⟩ := run h₁ _ hrt₁ hR₁ hT₁
  obtain ⟨⟨c1, c2⟩, ⟨c3, c4⟩⟩ := run h₂ _ hrt₂ hR₂ hT₂
  simp only [id] at a1 a2 a3 a4
  rw [Fin.sum_univ_add (fun j => ownR (simPhoton nev d t j))] at a1 a2
  rw [Fin.sum_univ_add (fun j => ownT (simPhoton nev d t j))] at a3 a4
  have hsb : ∑ j, photonBack (simPhoton nev d t j) = ∑ j : Fin n₁, photonBack (simPhoton nev d t (Fin.castAdd n₂ j)) +
    ∑ j : Fin n₂, photonBack (simPhoton nev d t (Fin.natAdd n₁ j)) := Fin.sum_univ_add _
  have hN : (0:ℝ) < ((n₁ + n₂ : ℕ) : ℝ) := by exact_mod_cast (by omega : 0 < n₁ + n₂)
  have hcast : (n₁:ℝ) + n₂ = ((n₁ + n₂ : ℕ) : ℝ) := by push_cast; ring
  rw [hcast]
  have fin1 : ∀ (X Y : ℝ), |((n₁ + n₂ : ℕ) : ℝ) * X - Y| ≤ ∑ j, photonBack (simPhoton nev d t j) → |X - Y / ((n₁ + n₂ : ℕ) : ℝ)| ≤ back := by
    intro X Y h
    have e : X - Y / ((n₁ + n₂ : ℕ) : ℝ) = (((n₁ + n₂ : ℕ) : ℝ) * X - Y) / ((n₁ + n₂ : ℕ) : ℝ) := by field_simp
    rw [e, abs_div, abs_of_pos hN]
    exact div_le_div_of_nonneg_right h hN.le
  refine ⟨fin1 _ _ ?_, fin1 _ _ ?_⟩ <;> rw [abs_le] <;> constructor <;> linarith


/-! ## films: the average of batches is not the result of the run -/

/-- a film of index 3/2 in air, detector over the hemisphere -/
def batchOptics : Optics := ⟨1, 3 / 2, 3 / 2, none, none, Real.pi / 2⟩

/-- heights of two photons in a film of thickness 1: both are scattered at height 1/2, the first one goes on, the second one turns back -/
def batchZ (e : Fin 3) (j : Fin 2) : ℝ := if e = 0 then 0 else if e = 1 then 1 / 2 else if j = 0 then 3 / 2 else -1 / 2

/-- their direction cosines -/
def batchK (e : Fin 2) (j : Fin 2) : ℝ := if e = 1 ∧ j = 1 then -1 else 1

/-- their fates -/
def batchFate (j : Fin 2) : Fate 2 := if j = 0 then .transmitted 1 else .reflected 1

/-- the fraction that passes a face at normal incidence -/
def batchPass : ℝ := (96 / 100) / (1 + 1 / 10 ^ 9)

theorem batch_pass : platePass 1 none (3 / 2) 0 = batchPass ∧ platePass (3 / 2) none 1 0 = batchPass := by
  have hp : (0:ℝ) ≠ Real.pi / 2 := by have := Real.pi_pos; intro h; linarith
  constructor
  · unfold platePass
    simp only [Option.getD_none, Real.sin_zero, mul_zero, zero_div, Real.arcsin_zero]
    rw [if_neg (by push Not; exact ⟨by norm_num, by norm_num, hp⟩)]
    norm_num [fresnelR, batchPass]
  · unfold platePass
    simp only [Option.getD_none, Real.sin_zero, mul_zero, zero_div, Real.arcsin_zero]
    rw [if_neg (by push Not; exact ⟨by norm_num, by norm_num, hp⟩)]
    norm_num [fresnelR, batchPass]

theorem batch_grazing : platePass (3 / 2) none 1 (Real.pi / 2) = 0 := by
  unfold platePass
  simp

theorem batch_fate (j : Fin 2) : IsFate (3 / 2) 1 0 1 (fun e => batchZ e j) (fun e => batchK e j) (batchFate j) := by
  have h0 : ∀ j : Fin 2, ∀ f : ℝ, ¬ LeavesThrough (nev := 2) (3 / 2) 1 0 1 f (fun e => batchZ e j) (fun e => batchK e j) 0 := by
    rintro j f ⟨-, b, h, -⟩
    simp only [batchZ, Fin.castSucc_zero, if_true, sub_zero, Fin.succ_zero_eq_one, Fin.one_eq_zero_iff, div_one] at h
    norm_num at h
    rcases h with ⟨h1, h2, -⟩ | ⟨h1, h2, -⟩
    · have h3 : (0:ℝ) < b := h1
      have h4 : (b:ℝ) < 1 := by linarith
      have : 0 < b := by exact_mod_cast h3
      have : b < 1 := by exact_mod_cast h4
      omega
    · linarith
  have hlt : ∀ e' : Fin 2, e' < 1 → e' = 0 := fun e' he => by
    have : e'.val < 1 := he
    ext; simp; omega
  fin_cases j
  · refine ⟨⟨?_, 1, ?_, ?_⟩, fun e' he' => ?_⟩
    · norm_num [batchK]
    · left
      refine ⟨by norm_num [batchZ], ?_, ?_⟩
      · simp [batchZ]
        norm_num
      · intro c hc
        have : (1/2:ℝ) < c := by simpa [batchZ] using hc
        have : (0:ℝ) < c := by linarith
        have : 0 < c := by exact_mod_cast this
        omega
    · norm_num [fold]
    · rw [hlt e' he']; exact ⟨h0 0 0, h0 0 1⟩
  · refine ⟨⟨?_, 0, ?_, ?_⟩, fun e' he' => ?_⟩
    · norm_num [batchK]
    · right
      refine ⟨?_, ?_, ?_⟩
      · simp [batchZ]
        norm_num
      · norm_num [batchZ]
      · intro c hc
        have : (c:ℝ) ≤ 1 / 2 := by simpa [batchZ] using hc
        have : (c:ℝ) < 1 := by linarith
        have : c < 1 := by exact_mod_cast this
        omega
    · norm_num [fold]
    · rw [hlt e' he']; exact ⟨h0 1 0, h0 1 1⟩

/-- the result of `calc_refl_trans` for the photons `σ 0, σ 1, …` -/
theorem batch_run {m : ℕ} (hm : 0 < m) (σ : Fin m → Fin 2) :
    let p : Fin m → Photon := fun j => filmPhotons batchOptics.medium (fun e j => batchK e (σ j)) (fun _ _ => 1)
      (fun j => (batchFate (σ j)).reflEvent) (fun j => (batchFate (σ j)).transEvent) (fun j => (batchFate (σ j)).lastEvent) (fun _ => 0)
      (fun j => Real.arccos |batchK 0 (σ j)| ≤ Real.pi / 2) j
    ∃ rt, Weights.calcReflTransFilm (nev := 1) batchOptics 1 0 (fun e j => batchZ e (σ j)) (fun e j => batchK e (σ j)) (fun _ _ => 1)
      none none false id = .ok rt ∧ (Photon.known p ≠ 0 → rt.R = fin (∑ j, Photon.refl p j)) := by
  intro p
  have hK : ∀ e j, |batchK e j| = 1 := fun e j => by unfold batchK; split <;> simp
  obtain ⟨rt, h1, h2⟩ := C101_film_estimator (nev := 1) (o := batchOptics) (thickness := 1) (z_low := 0) (fun e j => batchZ e (σ j))
    (kz := fun e j => batchK e (σ j)) (w := fun _ _ => 1) id
    ⟨hm, one_pos, by norm_num [batchOptics], fun x hx => (nomatch hx), fun x hx => (nomatch hx), fun e j => (hK _ _).le, fun _ _ => by norm_num,
      fun k hk => (nomatch hk), fun _ _ => Or.inl rfl⟩ (by norm_num [batchOptics]) (by norm_num [batchOptics]) one_pos
    (fate := fun j => batchFate (σ j)) (fun j => batch_fate (σ j)) (θinc := fun _ => 0) (fun _ => ⟨le_rfl, by have := Real.pi_pos; linarith⟩)
    (fun j => by simp [Snell, hK])
  refine ⟨rt, h1, fun hk => ?_⟩
  rcases h2 with ⟨h, -⟩ | ⟨-, -, -, h, -⟩
  · exact absurd h hk
  · exact h

/-- C144, films: **refuted.**  Two photons cross a film of index 3/2 in air; both are scattered once, one of them back.  The reflectance of
the run with both photons is not the average of the reflectances of two runs with one photon each. -/
theorem C144_film_batches_refuted :
    ∃ (z : Fin 3 → Fin 2 → ℝ) (kz : Fin 2 → Fin 2 → ℝ) (rt : RT 2) (rt₁ rt₂ : RT 1) (R R₁ R₂ : ℝ),
      Weights.calcReflTransFilm (nev := 1) batchOptics 1 0 z kz (fun _ _ => 1) none none false id = .ok rt ∧
      Weights.calcReflTransFilm (nev := 1) batchOptics 1 0 (fun e _ => z e 0) (fun e _ => kz e 0) (fun _ _ => 1) none none false id = .ok rt₁ ∧
      Weights.calcReflTransFilm (nev := 1) batchOptics 1 0 (fun e _ => z e 1) (fun e _ => kz e 1) (fun _ _ => 1) none none false id = .ok rt₂ ∧
      rt.R = fin R ∧ rt₁.R = fin R₁ ∧ rt₂.R = fin R₂ ∧ R < (R₁ + R₂) / 2 := by
  obtain ⟨rt, h, hR⟩ := batch_run (by norm_num) (id : Fin 2 → Fin 2)
  obtain ⟨rt₁, h₁, hR₁⟩ := batch_run one_pos (fun _ : Fin 1 => (0 : Fin 2))
  obtain ⟨rt₂, h₂, hR₂⟩ := batch_run one_pos (fun _ : Fin 1 => (1 : Fin 2))
  have q0 : 0 < batchPass := by norm_num [batchPass]
  have q1 : batchPass < 1 := by norm_num [batchPass]
  have q9 : (1 / 10 ^ 9 : ℝ) < batchPass * batchPass := by norm_num [batchPass]
  have hK0 : ∀ j, batchK 0 j = 1 := fun j => by simp [batchK]
  have hK1 : ∀ j, |batchK 1 j| = 1 := fun j => by unfold batchK; split <;> simp
  have hseen : SeenWithin (3 / 2) 1 (Real.pi / 2) 0 := ⟨0, ⟨by have := Real.pi_pos; linarith, by have := Real.pi_pos; linarith⟩, by simp [Snell],
    by have := Real.pi_pos; linarith⟩
  have hinc : (0:ℝ) ≤ Real.pi / 2 := by have := Real.pi_pos; linarith
  have e0 : ∀ {m : ℕ} (σ : Fin m → Fin 2) (j : Fin m), σ j = 0 → ∃ s : Prop,
      filmPhotons batchOptics.medium (fun e j => batchK e (σ j)) (fun _ _ => 1)
      (fun j => (batchFate (σ j)).reflEvent) (fun j => (batchFate (σ j)).transEvent) (fun j => (batchFate (σ j)).lastEvent) (fun _ => 0)
      (fun j => Real.arccos |batchK 0 (σ j)| ≤ Real.pi / 2) j = ⟨batchPass, 0, batchPass, 0, 0, batchPass, s, True, True⟩ := by
    intro m σ j hj
    refine ⟨SeenWithin (3 / 2) 1 (Real.pi / 2) (Real.pi / 2), ?_⟩
    simp only [filmPhotons, hj, batchFate, if_true, Fate.reflEvent, Fate.transEvent, Fate.lastEvent, valueAt, hK0, hK1, abs_one, Real.arccos_one,
      abs_zero, Real.arccos_zero, mul_zero, mul_one]
    simp only [Optics.medium, batchOptics, batch_pass, batch_grazing, hseen, hinc]
  have e1 : ∀ {m : ℕ} (σ : Fin m → Fin 2) (j : Fin m), σ j = 1 → ∃ s : Prop,
      filmPhotons batchOptics.medium (fun e j => batchK e (σ j)) (fun _ _ => 1)
      (fun j => (batchFate (σ j)).reflEvent) (fun j => (batchFate (σ j)).transEvent) (fun j => (batchFate (σ j)).lastEvent) (fun _ => 0)
      (fun j => Real.arccos |batchK 0 (σ j)| ≤ Real.pi / 2) j = ⟨batchPass, batchPass, 0, 0, batchPass, 0, True, s, True⟩ := by
    intro m σ j hj
    refine ⟨SeenWithin (3 / 2) 1 (Real.pi / 2) (Real.pi / 2), ?_⟩
    simp only [filmPhotons, hj, batchFate, Fate.reflEvent, Fate.transEvent, Fate.lastEvent, valueAt, hK0, hK1, abs_one, Real.arccos_one,
      abs_zero, Real.arccos_zero, mul_zero, mul_one, one_ne_zero, if_false]
    simp only [Optics.medium, batchOptics, batch_pass, batch_grazing, hseen, hinc]
  obtain ⟨s0, p0⟩ := e0 (id : Fin 2 → Fin 2) 0 rfl
  obtain ⟨s1, p1⟩ := e1 (id : Fin 2 → Fin 2) 1 rfl
  obtain ⟨s2, p2⟩ := e0 (fun _ : Fin 1 => (0 : Fin 2)) 0 rfl
  obtain ⟨s3, p3⟩ := e1 (fun _ : Fin 1 => (1 : Fin 2)) 0 rfl
  simp only [id] at p0 p1
  set q := batchPass with hq
  have hqq : q * q ≠ 0 := by positivity
  have hm1 : ∀ x : ℝ, max x (1 / 10 ^ 9) / max x (1 / 10 ^ 9) = 1 := fun x => div_self (lt_max_of_lt_right (by norm_num)).ne'
  refine ⟨batchZ, batchK, rt, rt₁, rt₂, (q * q + 2 * (1 - q) + q * (1 - q)) / 2, 1 - q + q * (1 - q), 1, h, h₁, h₂, ?_, ?_, ?_, ?_⟩
  · rw [hR]
    · simp only [id, Fin.sum_univ_two, Photon.refl, Photon.known, Photon.absorbed, Photon.escapedR, Photon.escapedT, Photon.shareR, p0, p1, fin_inj]
      simp only [if_true, zero_mul, mul_zero, ite_self, add_zero, zero_add, sub_zero, sub_self]
      rw [hm1]
      push_cast
      field_simp
      ring
    · simp only [id, Fin.sum_univ_two, Photon.known, Photon.absorbed, Photon.escapedR, Photon.escapedT, p0, p1]
      ring_nf
      positivity
  · rw [hR₁]
    · simp only [Finset.univ_unique, Fin.default_eq_zero, Finset.sum_singleton, Photon.refl, Photon.known, Photon.absorbed, Photon.escapedR, Photon.escapedT, Photon.shareR, p2, fin_inj]
      simp only [if_true, zero_mul, mul_zero, ite_self, add_zero, zero_add, sub_zero, sub_self]
      rw [hm1]
      push_cast
      field_simp
      ring
    · simp only [Finset.univ_unique, Fin.default_eq_zero, Finset.sum_singleton, Photon.known, Photon.absorbed, Photon.escapedR, Photon.escapedT, p2]
      ring_nf
      positivity
  · rw [hR₂]
    · simp only [Finset.univ_unique, Fin.default_eq_zero, Finset.sum_singleton, Photon.refl, Photon.known, Photon.absorbed, Photon.escapedR, Photon.escapedT, Photon.shareR, p3, fin_inj]
      simp only [if_true, zero_mul, mul_zero, add_zero, zero_add, sub_zero, sub_self]
      rw [hm1]
      push_cast
      field_simp
      ring
    · simp only [Finset.univ_unique, Fin.default_eq_zero, Finset.sum_singleton, Photon.known, Photon.absorbed, Photon.escapedR, Photon.escapedT, p3]
      ring_nf
      positivity
  · nlinarith

/-- Non-vacuity of C144 for films: two photons with steps of their own in an absorbing film; all three runs give numbers. -/
example : ∃ (a : Args (1 + 1)) (S : Sampling (1 + 1) 3) (d : DetArgs) (t : Trajs (1 + 1)) (rt : RT (1 + 1)) (rt₁ rt₂ : RT 1) (R R₁ R₂ T T₁ T₂ : ℝ),
    FilmRun a S d ∧ a.coarse_roughness = 0 ∧ a.theta_data = none ∧ a.phi_data = none ∧ S.mu_scat_mie = none ∧ d.fine_roughness = 0 ∧
    d.gonio = none ∧ d.z_low < d.thickness ∧ d.detection_angle = Real.pi / 2 ∧ S.rand_step 0 0 ≠ S.rand_step 0 1 ∧
    simulate (3 + 1) a S = .ok t ∧ runFilm 3 a S d = .ok rt ∧
    runFilm 3 (pickArgs (Fin.castAdd 1) a) (pickSampling (Fin.castAdd 1) S) d = .ok rt₁ ∧
    runFilm 3 (pickArgs (Fin.natAdd 1) a) (pickSampling (Fin.natAdd 1) S) d = .ok rt₂ ∧
    rt.R = fin R ∧ rt₁.R = fin R₁ ∧ rt₂.R = fin R₂ ∧ rt.T = fin T ∧ rt₁.T = fin T₁ ∧ rt₂.T = fin T₂ := by
  have h := demo_filmRun 1 zero_le_one none
  let a : Args (1 + 1) := ⟨1, 3 / 2, .film, 0, 0, none, 0, 0, none, 1, none, 0, fun _ => 0, fun _ => 0, fun _ => 0, fun _ => 0, fun _ => 0,
    fun _ => 0, fun _ => 0⟩
  let S : Sampling (1 + 1) 3 :=
    { p := (demoSampling 1).p, min_angle := 0, draw_theta := fun _ _ => 1, rand_phi := fun _ _ => 0, mu_scat := 1, mu_scat_mie := none,
      fine_roughness := 0, rand_step := fun _ j => if j = 0 then 1 / 2 else 1 / 4, rand_mie := fun _ => 1 / 2, mu_abs := 1 }
  have hstep : ∀ (i : ℕ) (j : Fin (1 + 1)), 0 < S.rand_step i j ∧ S.rand_step i j < 1 := fun i j => by
    show 0 < (if j = 0 then (1 / 2 : ℝ) else 1 / 4) ∧ (if j = 0 then (1 / 2 : ℝ) else 1 / 4) < 1
    split <;> norm_num
  have H : FilmRun a S (demoDet none) :=
    { nt_pos := by norm_num, film := rfl, no_diameter := rfl, theta_len := fun l hl => (nomatch hl), phi_len := fun l hl => (nomatch hl)
      theta_range := le_rfl, phi_range := le_rfl, same_medium := rfl, same_sample := rfl, medium_pos := one_pos, not_denser := h.not_denser
      front := h.front, back := h.back, particle := h.particle, matrix := h.matrix, fine := h.fine, draw_t := fun _ => ⟨le_rfl, one_pos⟩
      draw_p := fun _ => ⟨le_rfl, one_pos⟩, phase := h.phase, min_angle := h.min_angle, phase_pos := h.phase_pos
      rand_phi := fun _ _ => ⟨le_rfl, one_pos⟩, mu_scat := one_pos, mu_mie := fun m hm => (nomatch hm), fine_step := ⟨le_rfl, zero_le_one⟩
      rand_step := fun i j => ⟨(hstep i j).1.le, (hstep i j).2⟩, rand_mie := fun _ => by norm_num [S], mu_abs := zero_le_one }
  have hreq : ∀ {n : ℕ} (j : Fin n) θ, Requested (none : Option (List ℝ)) 0 0 j θ → |Real.sin θ| < 1 := by
    intro n j θ hθ
    have : θ = 0 := le_antisymm hθ.2 hθ.1
    rw [this]; simp
  obtain ⟨t, ht, -⟩ := simulate_facts H 3
  obtain ⟨rt, R, T, e1, e2, e3, -⟩ := C95_film_run_absorbing H 3 rfl one_pos rfl rfl rfl rfl (fun j θ hθ => hreq j θ hθ)
    ⟨0, (hstep 0 0).1, by norm_num [S]⟩
  obtain ⟨rt₁, R₁, T₁, f1, f2, f3, -⟩ := C95_film_run_absorbing (pick_filmRun H rfl rfl one_pos (Fin.castAdd 1)) 3 rfl one_pos rfl rfl rfl rfl
    (fun j θ hθ => hreq j θ hθ) ⟨0, (hstep 0 (Fin.castAdd 1 0)).1, by norm_num [S, pickSampling]⟩
  obtain ⟨rt₂, R₂, T₂, g1, g2, g3, -⟩ := C95_film_run_absorbing (pick_filmRun H rfl rfl one_pos (Fin.natAdd 1)) 3 rfl one_pos rfl rfl rfl rfl
    (fun j θ hθ => hreq j θ hθ) ⟨0, (hstep 0 (Fin.natAdd 1 0)).1, by norm_num [S, pickSampling]⟩
  refine ⟨a, S, demoDet none, t, rt, rt₁, rt₂, R, R₁, R₂, T, T₁, T₂, H, rfl, rfl, rfl, rfl, rfl, rfl, by norm_num [demoDet], rfl, ?_, ht, e1, f1, g1,
    e2, f2, g2, e3, f3, g3⟩
  show (if (0 : Fin (1 + 1)) = 0 then (1 / 2 : ℝ) else 1 / 4) ≠ (if (1 : Fin (1 + 1)) = 0 then (1 / 2 : ℝ) else 1 / 4)
  norm_num

end
end Verif.Props
