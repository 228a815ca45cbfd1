import Verif.Props.SphereAbsorption

/-!
# C153: a sphere that hardly scatters and has the index of its surroundings is invisible
-/

namespace Verif.Props
noncomputable section
open Classical Verif.Spec Verif.Root Verif.Fresnel Verif.Exits Verif.Weights _root_.Verif.XF
open Verif.Simulation Verif.Traj Verif.SphereRun Verif.Restart Verif.Init
open Verif (XF PyErr)
open Verif.Geometry (ofV3 XV)

variable {nt num : ℕ}

/-- Rows 0 and 1 of a run in a sphere of the index of its surroundings: photon `j` starts on the illuminated hemisphere and heads for the
centre. -/
theorem matched_rows {a : Args nt} {S : Sampling nt num} {d : SphereArgs} {draws : ℕ → Draws nt num} (H : SphereDomain a S d draws)
    (hmatch : d.n_medium = d.n_sample) (hmie : S.mu_scat_mie = none ∨ S.fine_roughness = 0) (nev : ℕ) :
    ∃ t, simulate nev a S = .ok t ∧ ∀ j, ∃ N : V3, N.normSq = 1 ∧ 0 < N.z ∧ t.direction 0 j = N ∧
      V3.sub (t.position 0 j) ⟨0, 0, d.thickness / 2⟩ = V3.smul (-(d.thickness / 2)) N ∧
      V3.sub (t.position 1 j) (t.position 0 j) = V3.smul (-Real.log (1 - S.rand_step 0 j) / S.mu_scat) N ∧
      t.weight 0 j = Real.exp (-(S.mu_abs * (-Real.log (1 - S.rand_step 0 j) / S.mu_scat))) := by
  have hm := H.mu_scat
  have hD := H.diameter_pos
  have hR : 0 < d.thickness / 2 := by linarith
  have hmed : 0 < a.n_medium := by rw [H.same_medium]; exact H.medium_pos
  have hok : ∃ p, Init.initializeTraj a = .ok p := by
    unfold Init.initializeTraj
    rw [H.sphere]
    simp only [H.diameter, Init.enter, if_pos H.smooth]
    exact ⟨_, rfl⟩
  obtain ⟨p, hp⟩ := hok
  have hdir := C37_sphere_direction_refuted a H.sphere H.smooth H.diameter hD H.spot.1 H.spot.2 hmed
    (by rw [H.same_medium, H.same_sample, hmatch]) H.draw_r p hp
  obtain ⟨ang, hang, _, _, hcons⟩ := C35_sample_angles_1d (nt := nt) nev S.p S.min_angle S.draw_theta S.rand_phi H.phase
    H.min_angle.1 H.min_angle.2 H.phase_pos H.rand_phi
  have hs : sampleStep nt S.mu_scat S.mu_scat_mie S.fine_roughness S.rand_step S.rand_mie =
      .ok fun i j => fin (-Real.log (1 - S.rand_step i j)) / fin S.mu_scat := by
    unfold sampleStep
    rw [if_neg (by push Not; exact ⟨H.fine_step.2, H.fine_step.1⟩)]
    rcases hmie with h | h
    · rw [h]
    · cases S.mu_scat_mie with
      | none => rfl
      | some mm => simp [h, pyRound]
  obtain ⟨hw0, -, hr0, -⟩ := sphere_result H.sphere H.smooth H.diameter hp
  have hvalV : ∀ v : V3, valV (ofV3 v) = v := fun _ => rfl
  refine ⟨_, by simp only [simulate, hp, hang, hs, Bind.bind, Except.bind, Pure.pure, Except.pure, fin_div _ hm.ne', val]; rfl, fun j => ?_⟩
  obtain ⟨q, h1, h2, h3, -⟩ := hdir j
  obtain ⟨q', hq, -, hxy⟩ := spherePoint_eq (R := d.thickness / 2) (uth := a.uth j) hR H.spot.1 (by linarith [H.spot.2]) (H.draw_r j).1.le (H.draw_r j).2
  have hqq : q' = q := by
    have := (hr0 j).trans hq
    rw [h1] at this
    have e := Geometry.ofV3_inj.mp this
    exact e.symm
  have hz : q.z < d.thickness / 2 := by
    have e := h2.surface
    simp only [V3.normSq, V3.dot, V3.sub, sub_zero] at e
    rw [hqq] at hxy
    have hu := H.draw_r j
    have hsp : (a.spot_size / 2) ^ 2 ≤ (d.thickness / 2) ^ 2 := by
      have := H.spot
      apply pow_le_pow_left₀ (by linarith); linarith
    have hsp0 : 0 < (a.spot_size / 2) ^ 2 := by have := H.spot.1; positivity
    have : 0 < (q.z - d.thickness / 2) ^ 2 := by nlinarith
    rcases h2.illuminated.lt_or_eq with h | h
    · exact h
    · rw [h, sub_self] at this; norm_num at this
  refine ⟨inwardNormal (d.thickness / 2) q, h2.normal_unit hR, ?_, ?_, ?_, ?_, ?_⟩
  · simp only [inwardNormal, V3.smul, V3.sub]
    exact mul_pos (by positivity) (by linarith)
  · dsimp only
    rw [(C32_scatter_unit nev (fun i j => valV (p.k0 i j)) ang.sintheta ang.costheta ang.sinphi ang.cosphi hcons).1 j, h3, hvalV]
  · dsimp only
    rw [(C33_move_steps _ _ _ 0 j).1, h1, hvalV]
    ext <;> simp only [inwardNormal, V3.smul, V3.sub] <;> field_simp <;> ring
  · dsimp only
    rw [(C33_move_steps _ _ _ 0 j).2, (C32_scatter_unit nev (fun i j => valV (p.k0 i j)) ang.sintheta ang.costheta ang.sinphi ang.cosphi hcons).1 j, h3, hvalV]
  · simp [absorb, hw0, cumsum]

/-- what the code lets through a surface that is not there: all but a part in 10⁹ -/
def matchedPass : ℝ := 1 / (1 + 1 / 10 ^ 9)

theorem matched_pass {n : ℝ} (hn : 0 < n) : platePass n none n 0 = matchedPass := by
  have hp : (0:ℝ) ≠ Real.pi / 2 := by have := Real.pi_pos; intro h; linarith
  unfold platePass
  simp only [Option.getD_none, Real.sin_zero, mul_zero, zero_div, Real.arcsin_zero]
  rw [if_neg (by push Not; exact ⟨hn, hn, hp⟩)]
  unfold fresnelR matchedPass
  simp

/-- What is counted of a sphere of the index of its surroundings that all photons cross in their first step. -/
theorem matched_run {a : Args nt} {S : Sampling nt num} {d : SphereArgs} {draws : ℕ → Draws nt num} (H : SphereDomain a S d draws)
    (hmatch : d.n_medium = d.n_sample) (hmie : S.mu_scat_mie = none ∨ S.fine_roughness = 0) (hfine : d.fine_roughness = 0)
    (hfront : d.n_front = none) (hback : d.n_back = none) (hdet : 0 ≤ d.detection_angle)
    (hrerun : d.run_fresnel_traj = false ∨ 1 / 10 ^ 9 ≤ d.max_stuck) (nev : ℕ)
    (hlong : ∀ j, d.thickness < -Real.log (1 - S.rand_step 0 j) / S.mu_scat ∧ -Real.log (1 - S.rand_step 0 j) / S.mu_scat ≤ 10 ^ 19 * d.thickness) :
    let c := matchedPass
    let w := fun j => Real.exp (-(S.mu_abs * (-Real.log (1 - S.rand_step 0 j) / S.mu_scat)))
    ∃ rt, runSphere (nev + 1) a S d draws = .ok rt ∧ rt.T = fin ((∑ j, c * w j * (1 + c) / 2) / nt) ∧
      rt.R = fin ((∑ j, (1 - c + c * w j * (1 - c) / 2)) / nt) := by
  intro c w
  have hD := H.diameter_pos
  have hns : 0 < d.n_sample := hmatch ▸ H.medium_pos
  have htir : d.optics.n_tir = d.n_sample := by
    show Weights.nTir _ _ _ _ = _
    unfold Weights.nTir
    rw [hfine]
    cases d.n_particle <;> cases d.n_matrix <;> simp
  set R := d.thickness / 2 with hR
  have hR0 : 0 < R := by rw [hR]; linarith
  have hRD : 2 * R = d.thickness := by rw [hR]; ring
  obtain ⟨t, ht, hrow⟩ := matched_rows H hmatch hmie (nev + 1)
  choose N hN1 hNz hdir hp0 hp1 hwt using hrow
  simp only [← hR] at hp0
  set st : SphTrajs nt := ⟨t.position, t.direction, fun i j => fin (t.weight i j)⟩ with hst
  set s := fun j => -Real.log (1 - S.rand_step 0 j) / S.mu_scat with hs
  have hpos1 : ∀ j, V3.sub (t.position 1 j) ⟨0, 0, R⟩ = V3.smul (s j - R) (N j) := by
    intro j
    have e1 := hp0 j
    have e2 := hp1 j
    simp only [V3.sub, V3.smul, V3.mk.injEq] at e1 e2
    ext <;> simp only [V3.sub, V3.smul, hs] <;> linarith [e1.1, e1.2.1, e1.2.2, e2.1, e2.2.1, e2.2.2]
  have hsm : ∀ (x : ℝ) (v : V3), (V3.smul x v).normSq = x ^ 2 * v.normSq := fun x v => by simp only [V3.normSq, V3.dot, V3.smul]; ring
  have hout : ∀ j, R * R < (V3.sub (t.position 1 j) ⟨0, 0, R⟩).normSq := by
    intro j
    rw [hpos1, hsm, hN1]
    have h1 := (hlong j).1
    have : 2 * R < s j := by rw [hRD]; exact h1
    nlinarith
  have hl0 : ∀ j, LeavesBall R ⟨0, 0, R⟩ (fun r : Fin (nev + 2) => st.position r j) (0 : Fin (nev + 1)) := fun j =>
    ⟨hout j, fun e' he' => absurd he' (Fin.not_lt_zero e')⟩
  have honly : ∀ j (e : Fin (nev + 1)), LeavesBall R ⟨0, 0, R⟩ (fun r : Fin (nev + 2) => st.position r j) e → e = 0 := by
    intro j e he
    by_contra hne
    have : (0 : Fin (nev + 1)) < e := Fin.pos_of_ne_zero hne
    exact absurd (hl0 j).1 (not_lt.mpr (he.2 0 this))
  have hbd : ∀ j, Geometry.Bounded (V3.sub (t.position 1 j) ⟨0, 0, R⟩) (10 ^ 20 * R) := by
    intro j
    rw [hpos1]
    have h1 := (hlong j).1
    have h2 := (hlong j).2
    have h3 : 0 < s j - R := by
      have : 2 * R < s j := by rw [hRD]; exact h1
      linarith
    have h4 : s j - R ≤ 10 ^ 20 * R := by
      have : s j ≤ 10 ^ 19 * (2 * R) := by rw [hRD]; exact h2
      nlinarith
    have hn := hN1 j
    simp only [V3.normSq, V3.dot] at hn
    have hx : |(N j).x| ≤ 1 := abs_le_one_iff_mul_self_le_one.mpr (by nlinarith [mul_self_nonneg (N j).y, mul_self_nonneg (N j).z])
    have hy : |(N j).y| ≤ 1 := abs_le_one_iff_mul_self_le_one.mpr (by nlinarith [mul_self_nonneg (N j).x, mul_self_nonneg (N j).z])
    have hz : |(N j).z| ≤ 1 := abs_le_one_iff_mul_self_le_one.mpr (by nlinarith [mul_self_nonneg (N j).x, mul_self_nonneg (N j).y])
    have hb : ∀ x : ℝ, |x| ≤ 1 → |(s j - R) * x| ≤ 10 ^ 20 * R := fun x hx => by
      rw [abs_mul, abs_of_pos h3]
      nlinarith [abs_nonneg x]
    exact ⟨hb _ hx, hb _ hy, hb _ hz⟩
  have HB : BallBundle R st (nev + 1) (fun e j => t.weight e j) (fun j => V3.smul R (N j)) := by
    refine ⟨fun j => ?_, fun j => ?_, fun j => ?_, fun j e he => ?_, fun e j => rfl⟩
    · show (V3.sub (t.position 0 j) ⟨0, 0, R⟩).normSq = _
      rw [hp0, hsm, hN1]; ring
    · show (t.direction 0 j).normSq = 1
      rw [hdir, hN1]
    · show 0 ≤ V3.dot (V3.smul (-1 / R) (V3.sub (t.position 0 j) ⟨0, 0, R⟩)) (t.direction 0 j)
      rw [hp0, hdir]
      have hn := hN1 j
      have : V3.dot (V3.smul (-1 / R) (V3.smul (-R) (N j))) (N j) = (N j).normSq := by
        simp only [V3.dot, V3.smul, V3.normSq]; field_simp
      rw [this, hn]; exact zero_le_one
    · have := honly j e he
      subst this
      show SphereExit R (V3.sub (t.position 0 j) ⟨0, 0, R⟩) (V3.sub (t.position 1 j) ⟨0, 0, R⟩) (t.direction 0 j) (V3.smul R (N j))
      refine ⟨hR0, ?_, hout j, hbd j, ?_, ⟨s j, ?_, ?_⟩, ⟨2 * R, by linarith, ?_⟩, ?_⟩
      · rw [hp0, hsm, hN1]; exact le_of_eq (by ring)
      · rw [hdir, hN1]
      · have h1 := (hlong j).1
        have : d.thickness < s j := h1
        linarith
      · rw [hpos1, hp0, hdir]
        ext <;> simp only [V3.sub, V3.smul] <;> ring
      · rw [hp0, hdir]
        ext <;> simp only [V3.add, V3.smul] <;> ring
      · rw [hsm, hN1]; ring
  have hok : OpticsOK d.optics := ⟨H.medium_pos, by rw [htir]; exact hns, H.front, H.back⟩
  have hfate : ∀ j, IsBallFate R ⟨0, 0, R⟩ (fun r : Fin (nev + 2) => st.position r j)
      (fun e => some (st.direction e j).z) (.transmitted (0 : Fin (nev + 1))) := fun j =>
    ⟨hl0 j, (N j).z, by show some (t.direction 0 j).z = _; rw [hdir], hNz j⟩
  have hkz : ∀ j, ExitKzIs R d.optics.n_tir d.optics.n_medium (fun r : Fin (nev + 2) => st.position r j) (fun e : Fin (nev + 1) => st.direction e j)
      (fun e => some (st.direction e j).z) := fun j e hl =>
    (C24_sphere_straight_partial (HB.leave j e hl) hok.tir hok.medium (Or.inl (by rw [htir]; exact hmatch.symm))).1
  obtain ⟨rt, hrt, -, -, hrR, hrT⟩ := C109_matched_sphere H.nt_pos hR0 d.nested hok hns (by rw [htir]; exact hmatch.symm)
    ⟨S.p, S.mu_scat, S.mu_scat_mie, S.mu_abs⟩ draws d.max_stuck d.max_call_depth HB hfate
  obtain ⟨h1, h2, h3⟩ := ball_numbers (pos := rowsP (nev + 1) st.position) (dir := rowsD (nev + 1) st.direction) (fate := fun _ => .transmitted 0) hkz hfate
  obtain ⟨l, cc, ir, hlev, hL, hr, ht', hs', hpr, hpt, -⟩ := ball_level hR0 hok hns HB h1 h2 h3 (fun j e he => (nomatch he)) (fun j e he => by
      have : (0 : Fin (nev + 1)) = e := by simpa [Fate.transEvent] using he
      subst this
      exact hl0 j)
  set p := ballPhotons d.optics.medium R (fun j => V3.sub (st.position 0 j) ⟨0, 0, R⟩) (st.direction 0)
      (fun (e : Fin (nev + 1)) j => st.direction e j) (fun (e : Fin (nev + 1)) j => t.weight e j) (fun j => V3.smul R (N j))
      (fun _ : Fin nt => (Fate.transmitted (0 : Fin (nev + 1))).reflEvent) (fun _ => (Fate.transmitted (0 : Fin (nev + 1))).transEvent)
      (fun _ => (Fate.transmitted (0 : Fin (nev + 1))).lastEvent) with hp
  have hpass : platePass d.n_medium none d.n_sample 0 = c := by rw [hmatch]; exact matched_pass hns
  have hpass' : platePass d.n_sample none d.n_medium 0 = c := by rw [hmatch]; exact matched_pass hns
  have hin : ∀ j, Real.arccos (V3.dot (V3.smul (-1 / R) (V3.sub (st.position 0 j) ⟨0, 0, R⟩)) (st.direction 0 j)) = 0 := by
    intro j
    show Real.arccos (V3.dot (V3.smul (-1 / R) (V3.sub (t.position 0 j) ⟨0, 0, R⟩)) (t.direction 0 j)) = 0
    rw [hp0, hdir]
    have : V3.dot (V3.smul (-1 / R) (V3.smul (-R) (N j))) (N j) = (N j).normSq := by
      simp only [V3.dot, V3.smul, V3.normSq]; field_simp
    rw [this, hN1, Real.arccos_one]
  have hex : ∀ j, Real.arccos (V3.dot (V3.smul (1 / R) (V3.smul R (N j))) (st.direction 0 j)) = 0 := by
    intro j
    show Real.arccos (V3.dot (V3.smul (1 / R) (V3.smul R (N j))) (t.direction 0 j)) = 0
    rw [hdir]
    have : V3.dot (V3.smul (1 / R) (V3.smul R (N j))) (N j) = (N j).normSq := by
      simp only [V3.dot, V3.smul, V3.normSq]; field_simp
    rw [this, hN1, Real.arccos_one]
  have hph : ∀ j, (p j).enter = c ∧ (p j).outR = 0 ∧ (p j).outT = c * w j ∧ (p j).trapped = 0 ∧ (p j).escT = c ∧ (p j).seenInc ∧ (p j).seenT := by
    intro j
    have hE : (p j).enter = c := by
      show platePass d.n_medium d.n_front d.optics.n_tir (Real.arccos _) = c
      rw [hin, hfront, htir, hpass]
    refine ⟨hE, mul_zero _, ?_, mul_zero _, ?_, ?_, ?_⟩
    · show (p j).enter * t.weight 0 j = _
      rw [hE, hwt]
    · show platePass d.optics.n_tir d.n_back d.n_medium (Real.arccos _) = c
      rw [hback, htir, ← hpass']
      exact congrArg _ (hex j)
    · show Real.arccos _ ≤ d.detection_angle
      rw [hin]; exact hdet
    · show SeenWithin d.n_sample d.n_medium d.detection_angle (Real.arccos (V3.dot (V3.smul (1 / R) (V3.smul R (N j))) (st.direction 0 j)))
      rw [hex]
      exact ⟨0, ⟨by linarith [Real.pi_pos], by linarith [Real.pi_pos]⟩, by simp [Snell], hdet⟩
  have hc0 : 0 < c := by show 0 < matchedPass; unfold matchedPass; positivity
  have hc1 : c ≤ 1 := by show matchedPass ≤ 1; unfold matchedPass; rw [div_le_one (by norm_num)]; norm_num
  have hc9 : 1 - c ≤ 1 / 10 ^ 9 := by show 1 - matchedPass ≤ _; unfold matchedPass; norm_num
  have hw0 : ∀ j, 0 < w j := fun j => Real.exp_pos _
  have hw1 : ∀ j, w j ≤ 1 := fun j => Real.exp_le_one_iff.mpr (neg_nonpos.mpr (mul_nonneg H.mu_abs (by linarith [(hlong j).1])))
  have hnt : (0 : ℝ) < nt := by exact_mod_cast H.nt_pos
  have hstuck : ¬ ((fin d.max_stuck : XF) < l.totalStuck ∧ d.run_fresnel_traj = true) := by
    rintro ⟨h, hr'⟩
    rcases hrerun with h' | h'
    · rw [h'] at hr'; exact Bool.false_ne_true hr'
    · rw [hL.total, fin_div _ hnt.ne', fin_lt] at h
      have hb : ∀ j, cc.fr j + cc.ft j + cc.s j ≤ 1 / 10 ^ 9 := by
        intro j
        have e1 : cc.fr j = 0 := by unfold RIn.fr RIn.Pr; rw [hr, (hph j).2.1]; ring
        have e2 : cc.ft j = c * w j * (1 - c) := by unfold RIn.ft RIn.Pt; rw [ht', hpt, (hph j).2.2.1, (hph j).2.2.2.2.1]; ring
        have e3 : cc.s j = 0 := by rw [hs', (hph j).2.2.2.1]
        rw [e1, e2, e3, zero_add, add_zero]
        have : c * w j ≤ 1 := mul_le_one₀ hc1 (hw0 j).le (hw1 j)
        nlinarith [mul_pos hc0 (hw0 j)]
      have : (∑ j, (cc.fr j + cc.ft j + cc.s j)) / nt ≤ 1 / 10 ^ 9 := by
        rw [div_le_iff₀ hnt]
        refine (Finset.sum_le_sum fun j _ => hb j).trans (le_of_eq ?_)
        simp; ring
      linarith
  have hcalc : calcSphere (2 * R) ⟨S.p, S.mu_scat, S.mu_scat_mie, S.mu_abs⟩ draws d.run_fresnel_traj d.max_stuck d.nested d.optics d.max_call_depth 0
      (nev + 1) st = .ok rt := by
    rw [← hrt, calcSphere.eq_def, calcSphere.eq_def]
    show (level _ _ _ (decide (0 < 0)) _ >>= _) = (level _ _ _ (decide (0 < 0)) _ >>= _)
    have hdz : decide (0 < 0) = false := rfl
    rw [hdz, hlev]
    simp only [bind, Except.bind]
    rw [dif_neg (fun h => hstuck ⟨h.2.2, h.1⟩), dif_neg (fun h => Bool.false_ne_true h.1)]
  have hTe : Photon.escapedT p = ∑ j, c * w j * c := Finset.sum_congr rfl fun j _ => by rw [(hph j).2.2.1, (hph j).2.2.2.2.1]
  have hshT : Photon.shareT p = 1 := by
    unfold Photon.shareT
    rw [Finset.sum_congr rfl fun j _ => if_pos (hph j).2.2.2.2.2.2]
    exact div_self (lt_max_of_lt_right (by norm_num)).ne'
  have hshR : Photon.shareR p = 1 := by
    unfold Photon.shareR Photon.escapedR
    have e : ∀ j, (p j).outR * (p j).escR = 0 := fun j => by rw [(hph j).2.1, zero_mul]
    simp only [e, ite_self]
    exact div_self (lt_max_of_lt_right (by norm_num)).ne'
  refine ⟨rt, ?_, ?_, ?_⟩
  · simp only [runSphere, ht, bind, Except.bind]
    rw [← hRD]
    exact hcalc
  · rw [hrT, Finset.sum_div]
    refine congrArg fin (Finset.sum_congr rfl fun j _ => ?_)
    unfold Photon.transSphere Photon.unknown
    change ((if (p j).seenT then (p j).outT * (p j).escT else 0) + ((p j).outR * (1 - (p j).escR) + (p j).outT * (1 - (p j).escT) + (p j).trapped) / 2 * Photon.shareT p) / nt = _
    rw [if_pos (hph j).2.2.2.2.2.2, hshT, (hph j).2.1, (hph j).2.2.1, (hph j).2.2.2.1, (hph j).2.2.2.2.1]
    ring
  · rw [hrR, Finset.sum_div]
    refine congrArg fin (Finset.sum_congr rfl fun j _ => ?_)
    unfold Photon.reflSphere Photon.unknown
    change ((if (p j).seenR then (p j).outR * (p j).escR else 0) + (if (p j).seenInc then 1 - (p j).enter else 0) +
      ((p j).outR * (1 - (p j).escR) + (p j).outT * (1 - (p j).escT) + (p j).trapped) / 2 * Photon.shareR p) / nt = _
    rw [if_pos (hph j).2.2.2.2.2.1, hshR, (hph j).1, (hph j).2.1, (hph j).2.2.1, (hph j).2.2.2.1, (hph j).2.2.2.2.1]
    simp only [zero_mul, ite_self]
    ring

/-- C153, without absorption.  A sphere of the index of its surroundings, without cover slips, is invisible if it hardly scatters: as soon as the
first step of every photon is longer than the diameter (and not longer than 10¹⁹ diameters), the run returns `R = 1 - T` with a transmittance of
1, up to the `2·10⁻⁹` by which the code regularises the Fresnel fractions.  (Light sent back at the surface may be re-run or not; if so, `max_stuck` is
at least 10⁻⁹, the default being 10⁻².) -/
theorem C153_invisible_partial {a : Args nt} {S : Sampling nt num} {d : SphereArgs} {draws : ℕ → Draws nt num} (H : SphereDomain a S d draws)
    (hmatch : d.n_medium = d.n_sample) (hmie : S.mu_scat_mie = none ∨ S.fine_roughness = 0) (hfine : d.fine_roughness = 0)
    (hfront : d.n_front = none) (hback : d.n_back = none) (hdet : 0 ≤ d.detection_angle)
    (hrerun : d.run_fresnel_traj = false ∨ 1 / 10 ^ 9 ≤ d.max_stuck) (nev : ℕ)
    (hlong : ∀ j, d.thickness < -Real.log (1 - S.rand_step 0 j) / S.mu_scat ∧ -Real.log (1 - S.rand_step 0 j) / S.mu_scat ≤ 10 ^ 19 * d.thickness)
    (hclear : S.mu_abs = 0) :
    ∃ rt T, runSphere (nev + 1) a S d draws = .ok rt ∧ rt.T = fin T ∧ rt.R = fin (1 - T) ∧ 1 - 2 / 10 ^ 9 ≤ T ∧ T ≤ 1 := by
  obtain ⟨rt, hrt, hT, hR⟩ := matched_run H hmatch hmie hfine hfront hback hdet hrerun nev hlong
  have hnt : (0 : ℝ) < nt := by exact_mod_cast H.nt_pos
  refine ⟨rt, matchedPass * (1 + matchedPass) / 2, hrt, ?_, ?_, ?_, ?_⟩
  · rw [hT]
    simp only [hclear, zero_mul, neg_zero, Real.exp_zero, mul_one, Finset.sum_const, Finset.card_univ, Fintype.card_fin, nsmul_eq_mul]
    rw [mul_div_cancel_left₀ _ hnt.ne']
  · rw [hR]
    simp only [hclear, zero_mul, neg_zero, Real.exp_zero, mul_one, Finset.sum_const, Finset.card_univ, Fintype.card_fin, nsmul_eq_mul]
    rw [mul_div_cancel_left₀ _ hnt.ne']
    congr 1; ring
  · unfold matchedPass; norm_num
  · unfold matchedPass; norm_num

/-- C153, refuted with absorption.  In a sphere of the index of its surroundings no light that is not scattered travels further than the diameter
`D`, so that at least the fraction `exp(-mu_abs D)` of it is transmitted.  The run returns less, and as little as one likes: if the first step of
every photon is not shorter than `M > D`, the transmittance is at most `exp(-mu_abs M)`, because absorption is applied to the whole last step and
not to its part inside the sphere.  The missing light is not reflected either. -/
theorem C153_absorbing_refuted {a : Args nt} {S : Sampling nt num} {d : SphereArgs} {draws : ℕ → Draws nt num} (H : SphereDomain a S d draws)
    (hmatch : d.n_medium = d.n_sample) (hmie : S.mu_scat_mie = none ∨ S.fine_roughness = 0) (hfine : d.fine_roughness = 0)
    (hfront : d.n_front = none) (hback : d.n_back = none) (hdet : 0 ≤ d.detection_angle)
    (hrerun : d.run_fresnel_traj = false ∨ 1 / 10 ^ 9 ≤ d.max_stuck) (nev : ℕ) (habs : 0 < S.mu_abs) {M : ℝ} (hM : d.thickness < M)
    (hlong : ∀ j, M ≤ -Real.log (1 - S.rand_step 0 j) / S.mu_scat ∧ -Real.log (1 - S.rand_step 0 j) / S.mu_scat ≤ 10 ^ 19 * d.thickness) :
    ∃ rt R T, runSphere (nev + 1) a S d draws = .ok rt ∧ rt.R = fin R ∧ rt.T = fin T ∧ T ≤ Real.exp (-(S.mu_abs * M)) ∧
      T < Real.exp (-(S.mu_abs * d.thickness)) ∧ R ≤ 2 / 10 ^ 9 := by
  obtain ⟨rt, hrt, hT, hR⟩ := matched_run H hmatch hmie hfine hfront hback hdet hrerun nev fun j => ⟨hM.trans_le (hlong j).1, (hlong j).2⟩
  have hnt : (0 : ℝ) < nt := by exact_mod_cast H.nt_pos
  have hc0 : 0 < matchedPass := by unfold matchedPass; positivity
  have hc1 : matchedPass ≤ 1 := by unfold matchedPass; norm_num
  have hc9 : 1 - matchedPass ≤ 1 / 10 ^ 9 := by unfold matchedPass; norm_num
  have hw : ∀ j, Real.exp (-(S.mu_abs * (-Real.log (1 - S.rand_step 0 j) / S.mu_scat))) ≤ Real.exp (-(S.mu_abs * M)) := fun j =>
    Real.exp_le_exp.mpr (by have := mul_le_mul_of_nonneg_left (hlong j).1 habs.le; linarith)
  have hM0 : Real.exp (-(S.mu_abs * M)) ≤ 1 := Real.exp_le_one_iff.mpr (by have := mul_pos habs (H.diameter_pos.trans hM); linarith)
  have hTM : (∑ j, matchedPass * Real.exp (-(S.mu_abs * (-Real.log (1 - S.rand_step 0 j) / S.mu_scat))) * (1 + matchedPass) / 2) / nt ≤
      Real.exp (-(S.mu_abs * M)) := by
    rw [div_le_iff₀ hnt]
    refine (Finset.sum_le_sum (g := fun _ => Real.exp (-(S.mu_abs * M))) fun j _ => ?_).trans (le_of_eq (by simp; ring))
    have h0 := Real.exp_pos (-(S.mu_abs * (-Real.log (1 - S.rand_step 0 j) / S.mu_scat)))
    have h1 := hw j
    have h2 : matchedPass * (1 + matchedPass) / 2 ≤ 1 := by nlinarith
    nlinarith
  refine ⟨rt, _, _, hrt, hR, hT, hTM, hTM.trans_lt (Real.exp_lt_exp.mpr (by have := mul_lt_mul_of_pos_left hM habs; linarith)), ?_⟩
  rw [div_le_iff₀ hnt]
  refine (Finset.sum_le_sum (g := fun _ => 2 / 10 ^ 9) fun j _ => ?_).trans (le_of_eq (by simp; ring))
  have h0 := Real.exp_pos (-(S.mu_abs * (-Real.log (1 - S.rand_step 0 j) / S.mu_scat)))
  have h1 := (hw j).trans hM0
  have h2 : matchedPass * Real.exp (-(S.mu_abs * (-Real.log (1 - S.rand_step 0 j) / S.mu_scat))) ≤ 1 := mul_le_one₀ hc1 h0.le h1
  nlinarith [mul_pos hc0 h0]

/-- a photon whose first step is 200, in a sphere of diameter 2 in a medium of the same index -/
def clearArgs : Args 1 :=
  ⟨3 / 2, 3 / 2, .sphere, 0, 0, none, 0, 0, none, 1, some 2, 0, fun _ => 0, fun _ => 0, fun _ => 0, fun _ => 0, fun _ => 1 / 2, fun _ => 0, fun _ => 0⟩
def clearSampling (mu : ℝ) : Sampling 1 3 := { demoSampling mu with rand_step := fun _ _ => 1 - Real.exp (-200) }
def clearSphere : SphereArgs := ⟨3 / 2, 3 / 2, 2, none, none, Real.pi / 2, 0, none, none, true, 20, 1 / 100⟩

theorem clear_domain (mu : ℝ) (hmu : 0 ≤ mu) : SphereDomain clearArgs (clearSampling mu) clearSphere axisDraws :=
  { axis_domain mu hmu with
    same_medium := rfl
    same_sample := rfl
    medium_pos := by norm_num [clearSphere]
    not_denser := le_rfl
    rand_step := fun _ _ => by
      have h1 := Real.exp_pos (-200)
      have h2 : Real.exp (-200) ≤ 1 := Real.exp_le_one_iff.mpr (by norm_num)
      simp only [clearSampling]
      constructor <;> linarith }

theorem clear_step (mu : ℝ) (j : Fin 1) : -Real.log (1 - (clearSampling mu).rand_step 0 j) / (clearSampling mu).mu_scat = 200 := by
  simp [clearSampling, demoSampling]

/-- Non-vacuity of `C153_invisible_partial`: the default arguments of `calc_refl_trans`, and a run meeting all hypotheses. -/
example (nev : ℕ) : ∃ rt T, runSphere (nev + 1) clearArgs (clearSampling 0) clearSphere axisDraws = .ok rt ∧ rt.T = fin T ∧ rt.R = fin (1 - T) ∧
    1 - 2 / 10 ^ 9 ≤ T ∧ T ≤ 1 :=
  C153_invisible_partial (clear_domain 0 le_rfl) rfl (Or.inl rfl) rfl rfl rfl (by simp only [clearSphere]; positivity)
    (Or.inr (by norm_num [clearSphere])) nev (fun j => by rw [clear_step]; norm_num [clearSphere]) rfl

/-- Non-vacuity of `C153_absorbing_refuted`: with an absorption coefficient of 1/20 at least exp(-1/10), nine tenths, of the light gets through a
sphere of diameter 2; the run returns at most exp(-10). -/
example (nev : ℕ) : ∃ rt R T, runSphere (nev + 1) clearArgs (clearSampling (1 / 20)) clearSphere axisDraws = .ok rt ∧ rt.R = fin R ∧ rt.T = fin T ∧
    T ≤ Real.exp (-10) ∧ R ≤ 2 / 10 ^ 9 := by
  obtain ⟨rt, R, T, h1, h2, h3, h4, -, h5⟩ := C153_absorbing_refuted (clear_domain (1 / 20) (by norm_num)) rfl (Or.inl rfl) rfl rfl rfl
    (by simp only [clearSphere]; positivity) (Or.inr (by norm_num [clearSphere])) nev (by norm_num [clearSampling, demoSampling]) (M := 200)
    (by norm_num [clearSphere]) (fun j => by rw [clear_step]; norm_num [clearSphere])
  refine ⟨rt, R, T, h1, h2, h3, h4.trans (le_of_eq ?_), h5⟩
  norm_num [clearSampling, demoSampling]

end
end Verif.Props
