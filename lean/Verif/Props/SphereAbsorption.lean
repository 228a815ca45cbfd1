import Verif.Props.Batches
import Verif.Props.BatchesFilm
import Verif.Props.SphereEstimator

/-!
# C147: absorption darkens a sphere
-/

namespace Verif.Props
noncomputable section
open Classical Verif.Spec Verif.Root Verif.Fresnel Verif.Exits Verif.Weights _root_.Verif.XF
open Verif.Simulation Verif.Traj Verif.SphereRun Verif.Restart
open Verif (XF PyErr)
open Verif.Geometry (ofV3 XV)

variable {nt num : ℕ}

/-- one call of `calc_refl_trans`, for all weights the trajectories may have -/
theorem sphere_level_weights {D : ℝ} (hD : 0 < D) {o : Optics} (ho : OpticsOK o) (hns : 0 < o.n_sample) (hle : o.n_sample ≤ o.n_tir)
    (hdet : o.detection_angle = Real.pi / 2) (nev : ℕ) (pos dir : ℕ → Fin nt → V3)
    (hin : ∀ j, (V3.sub (pos 0 j) ⟨0, 0, D / 2⟩).normSq ≤ (D / 2) * (D / 2)) (ft : Bool)
    (hinc : ft = false → ∀ j, ∃ θ : ℝ, entryAngle D ⟨pos, dir, fun _ _ => 0⟩ j = fin θ ∧ 0 ≤ θ ∧ θ ≤ Real.pi / 2) :
    ∃ (i θr θt ir : Fin nt → ℝ), (∀ j, 0 ≤ i j ∧ i j ≤ 1) ∧
      ∀ w : ℕ → Fin nt → ℝ, (∀ e j, 0 ≤ w e j ∧ w e j ≤ 1) →
        let g := sphereGeometry nev o D ⟨pos, dir, fun _ _ => 0⟩
        let c := shadow o g (fun (e : Fin nev) j => w e j) i θr θt
        ∃ l : Level nt, level o (sphereGeometry nev o D ⟨pos, dir, fun i j => fin (w i j)⟩) none ft (fun (e : Fin nev) j => (fin (w e j) : XF)) = .ok l ∧
          LevelFin l c o.n_sample o.n_medium o.detection_angle ft ir ∧ c.Good ∧ (∀ j, c.r j + c.t j + c.s j ≤ 1) ∧
          (∀ j, c.dr o.n_sample o.n_medium o.detection_angle j = c.Pr j) ∧ (∀ j, c.dt o.n_sample o.n_medium o.detection_angle j = c.Pt j) ∧
          c.rdf o.n_sample o.n_medium o.detection_angle = 1 ∧ c.tdf o.n_sample o.n_medium o.detection_angle = 1 := by
  set g := sphereGeometry nev o D ⟨pos, dir, fun _ _ => 0⟩ with hg
  have hcase := fun j => sphere_cases o.n_tir o.n_medium D (rowsP nev pos) (rowsD nev dir) j
  have hri : ∀ j, g.ri j = 0 ∨ ∃ e : Fin nev, IsFirst nev (OutsideAfter D (rowsP nev pos) j) (e.val + 1) ∧ g.ri j = e.val + 1 := by
    intro j
    rcases hcase j with ⟨h, -⟩ | ⟨e, he, ⟨h, -⟩ | ⟨h, -⟩ | ⟨h, -⟩⟩
    · exact Or.inl h
    · exact Or.inr ⟨e, he, h⟩
    · exact Or.inl h
    · exact Or.inl h
  have hti : ∀ j, g.ti j = 0 ∨ ∃ e : Fin nev, IsFirst nev (OutsideAfter D (rowsP nev pos) j) (e.val + 1) ∧ g.ti j = e.val + 1 := by
    intro j
    rcases hcase j with ⟨-, h, -⟩ | ⟨e, he, ⟨-, h, -⟩ | ⟨-, h, -⟩ | ⟨-, h, -⟩⟩
    · exact Or.inl h
    · exact Or.inl h
    · exact Or.inr ⟨e, he, h⟩
    · exact Or.inl h
  have hex : ∀ j, (g.ti j = 0 ∧ g.si j = 0) ∨ (g.ri j = 0 ∧ g.si j = 0) ∨ (g.ri j = 0 ∧ g.ti j = 0) := by
    intro j
    rcases hcase j with ⟨h1, h2, h3, -⟩ | ⟨e, he, ⟨h1, h2, h3, -⟩ | ⟨h1, h2, h3, -⟩ | ⟨h1, h2, h3, -⟩⟩
    · exact Or.inr (Or.inr ⟨h1, h2⟩)
    · exact Or.inl ⟨h2, h3⟩
    · exact Or.inr (Or.inl ⟨h1, h3⟩)
    · exact Or.inr (Or.inr ⟨h1, h2⟩)
  have hθr : ∀ j, ∃ θ : ℝ, g.thRefl j = fin θ ∧ 0 ≤ θ ∧ θ ≤ Real.pi / 2 := fun j => exitAngle_mem hD (hin j) (hri j)
  have hθt : ∀ j, ∃ θ : ℝ, g.thTrans j = fin θ ∧ 0 ≤ θ ∧ θ ≤ Real.pi / 2 := fun j => exitAngle_mem hD (hin j) (hti j)
  choose θr hr1 hr2 using hθr
  choose θt ht1 ht2 using hθt
  have hi : ∃ i : Fin nt → ℝ, incPassFrac ft g.thInc o.n_medium o.n_front o.n_tir = .ok (fun j => fin (i j)) ∧ (∀ j, 0 ≤ i j ∧ i j ≤ 1) := by
    cases ft with
    | true => exact ⟨fun _ => 1, by simp [incPassFrac], fun _ => by norm_num⟩
    | false =>
      choose θ h1 h2 using hinc rfl
      have e : g.thInc = fun j => fin (θ j) := funext h1
      exact ⟨fun j => passFrac o.n_medium o.n_front o.n_tir (θ j), by
        simp only [incPassFrac, Bool.false_eq_true, if_false, e]
        exact fresnelPassFrac_fin _ _ ho.medium ho.front h2,
        fun j => passFrac_mem _ ho.medium ho.front (h2 j).1 (h2 j).2⟩
  obtain ⟨i, hi, hi01⟩ := hi
  obtain ⟨ir, hir, hir0, hir1⟩ := incReflIs_exists o g none i (fun j => (hi01 j).2)
  refine ⟨i, θr, θt, ir, hi01, fun w hw => ?_⟩
  intro g' c
  have hz : ∀ (idx : Fin nt → ℕ) j, idx j = 0 → Root.sel (fun (e : Fin nev) j => w e j) idx j = 0 := fun idx j h => Root.sel_zero _ idx j h
  obtain ⟨l, hl, hL⟩ := level_fin o g none ft (fun (e : Fin nev) j => w e j) i θr θt ir ho.tir ho.medium ho.front
    ho.back hi (funext hr1) (funext ht1) hr2 ht2 hir
  have hdr : ∀ j, c.dr o.n_sample o.n_medium o.detection_angle j = c.Pr j := fun j => by
    rw [hdet]; exact dcR_full hns hle ho.medium ho.front (hr2 j).1 (hr2 j).2
  have hdt : ∀ j, c.dt o.n_sample o.n_medium o.detection_angle j = c.Pt j := fun j => by
    rw [hdet]; exact dcR_full hns hle ho.medium ho.back (ht2 j).1 (ht2 j).2
  refine ⟨l, hl, hL, shadow_good ho.tir ho.front ho.back hr2 ht2 hi01 (fun e j => hw e j) hex, ?_, hdr, hdt, ?_, ?_⟩
  · intro j
    show i j * Root.sel _ g.ri j + i j * Root.sel _ g.ti j + i j * Root.sel _ g.si j ≤ 1
    have hsel : ∀ (idx : Fin nt → ℕ), Root.sel (fun (e : Fin nev) j => w e j) idx j ≤ 1 := by
      intro idx
      unfold Root.sel
      split
      · exact (hw _ j).2
      · exact zero_le_one
    have hij := hi01 j
    rcases hex j with ⟨h1, h2⟩ | ⟨h1, h2⟩ | ⟨h1, h2⟩ <;> rw [hz _ j h1, hz _ j h2]
    · nlinarith [hsel g.ri]
    · nlinarith [hsel g.ti]
    · nlinarith [hsel g.si]
  · unfold RIn.rdf
    rw [Finset.sum_congr rfl fun j _ => hdr j]
    exact div_self (RIn.maxEPS_pos _).ne'
  · unfold RIn.tdf
    rw [Finset.sum_congr rfl fun j _ => hdt j]
    exact div_self (RIn.maxEPS_pos _).ne'

/-- smaller weights, less of everything -/
theorem shadow_mono {nev : ℕ} {o : Optics} {g : Weights.Geometry nt} {w w' : Fin nev → Fin nt → ℝ} {i θr θt : Fin nt → ℝ}
    (hi : ∀ j, 0 ≤ i j) (hw : ∀ e j, w' e j ≤ w e j) (hg : (shadow o g w i θr θt).Good) (j : Fin nt) :
    (shadow o g w' i θr θt).Pr j ≤ (shadow o g w i θr θt).Pr j ∧ (shadow o g w' i θr θt).Pt j ≤ (shadow o g w i θr θt).Pt j ∧
    (shadow o g w' i θr θt).fr j ≤ (shadow o g w i θr θt).fr j ∧ (shadow o g w' i θr θt).ft j ≤ (shadow o g w i θr θt).ft j ∧
    (shadow o g w' i θr θt).s j ≤ (shadow o g w i θr θt).s j := by
  have hsel : ∀ idx : Fin nt → ℕ, Root.sel w' idx j ≤ Root.sel w idx j := by
    intro idx
    unfold Root.sel
    split
    · exact hw _ _
    · exact le_rfl
  have h1 := mul_le_mul_of_nonneg_left (hsel g.ri) (hi j)
  have h2 := mul_le_mul_of_nonneg_left (hsel g.ti) (hi j)
  have h3 := mul_le_mul_of_nonneg_left (hsel g.si) (hi j)
  have p0 := hg.pr0 j
  have p1 := hg.pr1 j
  have q0 := hg.pt0 j
  have q1 := hg.pt1 j
  have er : (shadow o g w i θr θt).r j = i j * Root.sel w g.ri j := rfl
  have er' : (shadow o g w' i θr θt).r j = i j * Root.sel w' g.ri j := rfl
  have et : (shadow o g w i θr θt).t j = i j * Root.sel w g.ti j := rfl
  have et' : (shadow o g w' i θr θt).t j = i j * Root.sel w' g.ti j := rfl
  have es : (shadow o g w i θr θt).s j = i j * Root.sel w g.si j := rfl
  have es' : (shadow o g w' i θr θt).s j = i j * Root.sel w' g.si j := rfl
  have ep : (shadow o g w' i θr θt).pr j = (shadow o g w i θr θt).pr j := rfl
  have eq : (shadow o g w' i θr θt).pt j = (shadow o g w i θr θt).pt j := rfl
  unfold RIn.Pr RIn.Pt RIn.fr RIn.ft RIn.Pr RIn.Pt
  rw [ep, eq, er, er', et, et', es, es']
  exact ⟨by nlinarith, by nlinarith, by nlinarith, by nlinarith, h3⟩

/-- the next generation, with two absorption coefficients -/
theorem rerun_two {a : Init.Args nt} {S : Sampling nt num} {d : SphereArgs} {draws : ℕ → Draws nt num}
    (H : SphereDomain a S d draws) {mu : ℝ} (hmu : S.mu_abs ≤ mu) (nevents depth : ℕ) {start : Fin nt → XV × XV} {ω ω' : Fin nt → ℝ}
    (hω : ∀ j, 0 ≤ ω' j ∧ ω' j ≤ ω j ∧ ω j ≤ 1)
    (hstart : ∀ j, ∃ p : V3, (start j).1 = ofV3 p ∧
      (V3.sub p ⟨0, 0, d.thickness / 2⟩).normSq ≤ (d.thickness / 2) * (d.thickness / 2)) :
    ∃ (pos dir : ℕ → Fin nt → V3) (w w' : ℕ → Fin nt → ℝ),
      rerun nevents ⟨S.p, S.mu_scat, S.mu_scat_mie, S.mu_abs⟩ (draws depth) start (fun j => fin (ω j)) = .ok ⟨pos, dir, fun i j => fin (w i j)⟩ ∧
      rerun nevents ⟨S.p, S.mu_scat, S.mu_scat_mie, mu⟩ (draws depth) start (fun j => fin (ω' j)) = .ok ⟨pos, dir, fun i j => fin (w' i j)⟩ ∧
      (∀ j, (V3.sub (pos 0 j) ⟨0, 0, d.thickness / 2⟩).normSq ≤ (d.thickness / 2) * (d.thickness / 2)) ∧
      ∀ i j, 0 ≤ w' i j ∧ w' i j ≤ w i j ∧ w i j ≤ 1 := by
  obtain ⟨ang, hang, _, _, hcons⟩ := C35_sample_angles_1d (nt := nt) nevents S.p (1 / 100) (draws depth).draw_theta
    (draws depth).rand_phi H.phase (by norm_num) (by linarith [Real.two_le_pi]) H.phase_pos_rerun (H.rerun_phi depth)
  obtain ⟨s, hs, hs0⟩ := steps_real (nt := nt) H.mu_scat H.mu_mie ⟨le_rfl, zero_le_one⟩ (H.rerun_step depth) (H.rerun_mie depth)
  have hval : ∀ r : ℝ, val (fin r) = r := fun _ => rfl
  refine ⟨_, _, _, _, by simp only [rerun, hang, hs, bind, Except.bind, pure, Except.pure, hval, fin_mul]; rfl,
    by simp only [rerun, hang, hs, bind, Except.bind, pure, Except.pure, hval, fin_mul]; rfl, ?_, ?_⟩
  · intro j
    rw [(C33_move_steps _ s _ 0 j).1]
    obtain ⟨p, hp, hp'⟩ := hstart j
    rw [if_pos rfl, hp]
    exact hp'
  · intro i j
    have hc := cumsum_nonneg (a := fun n => s n j) (fun n => hs0 n j) i
    have h1 := (att_facts H.mu_abs hs0).1 i j
    have h2 : Real.exp (-(mu * cumsum (fun n => s n j) i)) ≤ Real.exp (-(S.mu_abs * cumsum (fun n => s n j) i)) :=
      Real.exp_le_exp.mpr (by nlinarith)
    have h3 := Real.exp_pos (-(mu * cumsum (fun n => s n j) i))
    obtain ⟨o1, o2, o3⟩ := hω j
    refine ⟨mul_nonneg o1 h3.le, mul_le_mul o2 h2 h3.le (o1.trans o2), ?_⟩
    nlinarith [h1.1, h1.2]

/-- photon by photon, through all generations -/
theorem absorb_core {a : Init.Args nt} {S : Sampling nt num} {d : SphereArgs} {draws : ℕ → Draws nt num}
    (H : SphereDomain a S d draws) (hon : OpticsOK d.nested) (hrun : d.run_fresnel_traj = false ∨ d.max_stuck < 0) {mu : ℝ} (hmu : S.mu_abs ≤ mu) (k : ℕ) :
    ∀ (o : Optics), OpticsOK o → 0 < o.n_sample → o.n_sample ≤ o.n_tir → o.detection_angle = Real.pi / 2 →
      ∀ (M depth nev : ℕ) (pos dir : ℕ → Fin nt → V3) (w w' : ℕ → Fin nt → ℝ),
      2 * (20 - depth) + min 1 (M - depth) = k → (∀ i j, 0 ≤ w' i j ∧ w' i j ≤ w i j ∧ w i j ≤ 1) →
      (∀ j, (V3.sub (pos 0 j) ⟨0, 0, d.thickness / 2⟩).normSq ≤ (d.thickness / 2) * (d.thickness / 2)) →
      (depth = 0 → ∀ j, ∃ θ : ℝ, entryAngle d.thickness ⟨pos, dir, fun _ _ => 0⟩ j = fin θ ∧ 0 ≤ θ ∧ θ ≤ Real.pi / 2) →
      ∃ (rt rt' : RT nt) (f f' g g' : Fin nt → ℝ),
        calcSphere d.thickness ⟨S.p, S.mu_scat, S.mu_scat_mie, S.mu_abs⟩ draws d.run_fresnel_traj d.max_stuck
          d.nested o M depth nev ⟨pos, dir, fun i j => fin (w i j)⟩ = .ok rt ∧
        calcSphere d.thickness ⟨S.p, S.mu_scat, S.mu_scat_mie, mu⟩ draws d.run_fresnel_traj d.max_stuck
          d.nested o M depth nev ⟨pos, dir, fun i j => fin (w' i j)⟩ = .ok rt' ∧
        (∀ j, rt.reflPer j = fin (f j)) ∧ (∀ j, rt'.reflPer j = fin (f' j)) ∧ (∀ j, rt.transPer j = fin (g j)) ∧ (∀ j, rt'.transPer j = fin (g' j)) ∧
        rt.R = fin (∑ j, f j) ∧ rt'.R = fin (∑ j, f' j) ∧ rt.T = fin (∑ j, g j) ∧ rt'.T = fin (∑ j, g' j) ∧
        ∀ j, f' j ≤ f j ∧ g' j ≤ g j := by
  have hD := H.diameter_pos
  have hn0 : (nt : ℝ) ≠ 0 := by exact_mod_cast H.nt_pos.ne'
  have hn : (0 : ℝ) < nt := by exact_mod_cast H.nt_pos
  induction k using Nat.strong_induction_on with
  | _ k ih =>
    intro o ho hns hle hdet M depth nev pos dir w w' hk hw hin hinc
    obtain ⟨i, θr, θt, ir, hi01, hlev⟩ := sphere_level_weights hD ho hns hle hdet nev pos dir hin (decide (0 < depth))
      (fun h => hinc (by simpa using h))
    obtain ⟨l, hl, hL, hg, hsum, hdr, hdt, hrd, htd⟩ := hlev w fun e j => ⟨(hw e j).1.trans (hw e j).2.1, (hw e j).2.2⟩
    obtain ⟨l', hl', hL', hg', hsum', hdr', hdt', hrd', htd'⟩ := hlev w' fun e j => ⟨(hw e j).1, (hw e j).2.1.trans (hw e j).2.2⟩
    have hmono := shadow_mono (w := fun (e : Fin nev) j => w e j) (w' := fun (e : Fin nev) j => w' e j) (fun j => (hi01 j).1)
      (fun e j => (hw e j).2.1) hg
    generalize shadow o (sphereGeometry nev o d.thickness ⟨pos, dir, fun _ _ => 0⟩) (fun (e : Fin nev) j => w e j) i θr θt = c at *
    generalize shadow o (sphereGeometry nev o d.thickness ⟨pos, dir, fun _ _ => 0⟩) (fun (e : Fin nev) j => w' e j) i θr θt = c' at *
    by_cases hc : d.run_fresnel_traj = true ∧ depth < M
    · -- one more generation
      have hms : d.max_stuck < 0 := by
        rcases hrun with h | h
        · rw [h] at hc; exact absurd hc.1 (by decide)
        · exact h
      set I := sphereEvents nev o d.thickness ⟨pos, dir, fun _ _ => 0⟩ with hI
      have hcase := fun j => sphere_cases o.n_tir o.n_medium d.thickness (rowsP nev pos) (rowsD nev dir) j
      obtain ⟨F, hF, hFin⟩ := restart_inside (dir := rowsD nev dir) hD (pos := rowsP nev pos) hin
        (idx := Restart.restartIndices I.1 I.2.1 I.2.2.2) (by
          intro j
          show Restart.restartIndices _ _ _ j = 0 ∨ ∃ e : Fin nev, _ ∧ Restart.restartIndices _ _ _ j = _
          unfold Restart.restartIndices
          rcases hcase j with ⟨h1, h2, -, h3⟩ | ⟨e, he, ⟨h1, h2, -, h3⟩ | ⟨h1, h2, -, h3⟩ | ⟨h1, h2, -, h3⟩⟩
          · have e1 : I.1 j = 0 := h1
            have e2 : I.2.1 j = 0 := h2
            have e3 : I.2.2.2 j = 0 := h3
            exact Or.inl (by omega)
          · have e1 : I.1 j = e.val + 1 := h1
            have e2 : I.2.1 j = 0 := h2
            have e3 : I.2.2.2 j = 0 := h3
            exact Or.inr ⟨e, he, by omega⟩
          · have e1 : I.1 j = 0 := h1
            have e2 : I.2.1 j = e.val + 1 := h2
            have e3 : I.2.2.2 j = 0 := h3
            exact Or.inr ⟨e, he, by omega⟩
          · have e1 : I.1 j = 0 := h1
            have e2 : I.2.1 j = 0 := h2
            have e3 : I.2.2.2 j = e.val + 1 := h3
            exact Or.inr ⟨e, he, by omega⟩)
      have hp : ∀ {c : RIn nt}, c.Good → (∀ j, c.r j + c.t j + c.s j ≤ 1) → ∀ j, 0 ≤ c.fr j + c.ft j + c.s j ∧ c.fr j + c.ft j + c.s j ≤ 1 := by
        intro c hg hsum j
        have := hg.fr0 j; have := hg.ft0 j; have := hg.s0 j
        have := hg.Pr0 j; have := hg.Pt0 j
        have := hsum j
        have e1 : c.fr j = c.r j - c.Pr j := rfl
        have e2 : c.ft j = c.t j - c.Pt j := rfl
        constructor <;> linarith
      obtain ⟨pos', dir', v, v', hr1, hr2, hin', hv⟩ := rerun_two H hmu (nev + 1) (depth + 1) (ω := fun j => c.fr j + c.ft j + c.s j)
        (ω' := fun j => c'.fr j + c'.ft j + c'.s j) (fun j => ⟨(hp hg' hsum' j).1, by
          obtain ⟨-, -, m1, m2, m3⟩ := hmono j
          linarith, (hp hg hsum j).2⟩) hFin
      have hlt : 2 * (20 - (depth + 1)) + min 1 (defaultMaxCallDepth - (depth + 1)) < k := by
        have := hc.2
        unfold defaultMaxCallDepth
        omega
      have hs : 0 < d.n_sample := lt_of_lt_of_le H.medium_pos H.not_denser
      obtain ⟨r, r', f, f', g, g', hr, hr', q1, q2, q3, q4, q5, q6, q7, q8, hq⟩ := ih _ hlt d.nested hon hs le_rfl rfl defaultMaxCallDepth
        (depth + 1) (nev + 1) pos' dir' v v' rfl hv hin' (fun h => absurd h (by omega))
      have hstk : ∀ {c : RIn nt} {l : Level nt}, LevelFin l c o.n_sample o.n_medium o.detection_angle (decide (0 < depth)) ir → c.Good →
          (∀ j, c.r j + c.t j + c.s j ≤ 1) → (fin d.max_stuck : XF) < l.totalStuck := by
        intro c l hL hg hsum
        rw [hL.total, fin_div _ hn0, fin_lt]
        exact lt_of_lt_of_le hms (div_nonneg (Finset.sum_nonneg fun j _ => (hp hg hsum j).1) (Nat.cast_nonneg nt))
      have hW : ∀ {c : RIn nt} {l : Level nt}, LevelFin l c o.n_sample o.n_medium o.detection_angle (decide (0 < depth)) ir →
          Restart.restartWeight l.exit.reflFresnel l.exit.transFresnel l.out.stuck = fun j => (fin (c.fr j + c.ft j + c.s j) : XF) := by
        intro c l hL
        funext j
        rw [Restart.restartWeight, hL.reflFresnel, hL.transFresnel, hL.stuck, fin_add, fin_add]
      have hF1 : ∀ W : ℕ → Fin nt → XF, restart d.thickness (rowsP nev pos) (rowsD nev dir)
          (restartIndices (sphereEvents nev o d.thickness ⟨pos, dir, W⟩).1 (sphereEvents nev o d.thickness ⟨pos, dir, W⟩).2.1
            (sphereEvents nev o d.thickness ⟨pos, dir, W⟩).2.2.2) = .ok F := fun W => hF
      refine ⟨{ R := r.R + ∑ j, (l.det.refl j + l.det.incRefl j) / fin nt
                T := r.T + ∑ j, l.det.trans j / fin nt
                reflPer := fun j => r.reflPer j + (l.det.refl j + l.det.incRefl j) / fin nt
                transPer := fun j => r.transPer j + l.det.trans j / fin nt },
              { R := r'.R + ∑ j, (l'.det.refl j + l'.det.incRefl j) / fin nt
                T := r'.T + ∑ j, l'.det.trans j / fin nt
                reflPer := fun j => r'.reflPer j + (l'.det.refl j + l'.det.incRefl j) / fin nt
                transPer := fun j => r'.transPer j + l'.det.trans j / fin nt },
            fun j => f j + (c.Pr j + ir j) / nt, fun j => f' j + (c'.Pr j + ir j) / nt, fun j => g j + c.Pt j / nt, fun j => g' j + c'.Pt j / nt, ?_, ?_, ?_⟩
      · rw [calcSphere]
        simp only [hl, bind, Except.bind, dif_pos (And.intro hc.1 (And.intro hc.2 (hstk hL hg hsum))), hF1, hW hL, hr1, hr, pure, Except.pure]
      · rw [calcSphere]
        simp only [hl', bind, Except.bind, dif_pos (And.intro hc.1 (And.intro hc.2 (hstk hL' hg' hsum'))), hF1, hW hL', hr2, hr', pure, Except.pure]
      · simp only [q1, q2, q3, q4, q5, q6, q7, q8, hL.refl, hL.incRefl, hL.trans, hL'.refl, hL'.incRefl, hL'.trans, fin_add, fin_div _ hn0, hdr, hdt,
          hdr', hdt', sum_fin, Finset.sum_add_distrib, true_and, implies_true]
        intro j
        obtain ⟨m1, m2, -, -, -⟩ := hmono j
        exact ⟨add_le_add (hq j).1 (by gcongr), add_le_add (hq j).2 (by gcongr)⟩
    · have hd : ∀ {c : RIn nt} {l : Level nt}, LevelFin l c o.n_sample o.n_medium o.detection_angle (decide (0 < depth)) ir →
          (∀ j, c.dr o.n_sample o.n_medium o.detection_angle j = c.Pr j) → (∀ j, c.dt o.n_sample o.n_medium o.detection_angle j = c.Pt j) →
          c.rdf o.n_sample o.n_medium o.detection_angle = 1 → c.tdf o.n_sample o.n_medium o.detection_angle = 1 →
          (∀ j, (distribute l.exit l.det l.out.stuck .sphere false).reflPer j = fin ((c.Pr j + 1 / 2 * (c.fr j + c.ft j + c.s j) + ir j) / nt)) ∧
          (∀ j, (distribute l.exit l.det l.out.stuck .sphere false).transPer j = fin ((c.Pt j + 1 / 2 * (c.ft j + c.fr j + c.s j)) / nt)) := by
        intro c l hL hdr hdt hrd htd
        constructor
        · intro j
          simp only [distribute, hL.reflFresnel, hL.transFresnel, hL.stuck, hL.refl, hL.incRefl, hL.rdf, Bool.false_eq_true, if_false,
            fin_add, fin_mul, fin_div _ hn0, hrd, hdr, mul_one]
        · intro j
          simp only [distribute, hL.reflFresnel, hL.transFresnel, hL.stuck, hL.trans, hL.tdf, fin_add, fin_mul, fin_div _ hn0, htd, hdt, mul_one]
      have d1 := hd hL hdr hdt hrd htd
      have d2 := hd hL' hdr' hdt' hrd' htd'
      refine ⟨distribute l.exit l.det l.out.stuck .sphere false, distribute l'.exit l'.det l'.out.stuck .sphere false, _, _, _, _, ?_, ?_,
        d1.1, d2.1, d1.2, d2.2, ?_, ?_, ?_, ?_, ?_⟩
      · rw [calcSphere]
        simp only [hl, bind, Except.bind, dif_neg (fun h : d.run_fresnel_traj = true ∧ depth < M ∧ (fin d.max_stuck : XF) < l.totalStuck =>
          hc ⟨h.1, h.2.1⟩), pure, Except.pure]
      · rw [calcSphere]
        simp only [hl', bind, Except.bind, dif_neg (fun h : d.run_fresnel_traj = true ∧ depth < M ∧ (fin d.max_stuck : XF) < l'.totalStuck =>
          hc ⟨h.1, h.2.1⟩), pure, Except.pure]
      · show ∑ j, (distribute l.exit l.det l.out.stuck .sphere false).reflPer j = _
        rw [Finset.sum_congr rfl fun j _ => d1.1 j, sum_fin]
      · show ∑ j, (distribute l'.exit l'.det l'.out.stuck .sphere false).reflPer j = _
        rw [Finset.sum_congr rfl fun j _ => d2.1 j, sum_fin]
      · show ∑ j, (distribute l.exit l.det l.out.stuck .sphere false).transPer j = _
        rw [Finset.sum_congr rfl fun j _ => d1.2 j, sum_fin]
      · show ∑ j, (distribute l'.exit l'.det l'.out.stuck .sphere false).transPer j = _
        rw [Finset.sum_congr rfl fun j _ => d2.2 j, sum_fin]
      · intro j
        obtain ⟨m1, m2, m3, m4, m5⟩ := hmono j
        constructor <;> exact div_le_div_of_nonneg_right (by linarith) hn.le

private theorem simulate_mu {n : ℕ} {a : Init.Args nt} {S : Sampling nt num} {t : Trajs nt} (h : simulate n a S = .ok t) :
    ∃ (p : Init.Props0 nt) (step : ℕ → Fin nt → XF), Init.initializeTraj a = .ok p ∧
      sampleStep nt S.mu_scat S.mu_scat_mie S.fine_roughness S.rand_step S.rand_mie = .ok step ∧
      ∀ m, simulate n a { S with mu_abs := m } = .ok { t with weight := absorb p.weight0 m fun i j => val (step i j) } := by
  unfold simulate at h
  rcases hp : Init.initializeTraj a with e | p
  · rw [hp] at h; cases h
  rcases hang : sampleAngles1 n S.p S.min_angle S.draw_theta S.rand_phi with e | ang
  · rw [hp, hang] at h; cases h
  rcases hs : sampleStep nt S.mu_scat S.mu_scat_mie S.fine_roughness S.rand_step S.rand_mie with e | step
  · rw [hp, hang, hs] at h; cases h
  rw [hp, hang, hs] at h
  simp only [bind, Except.bind, pure, Except.pure] at h
  injection h with h
  refine ⟨p, step, rfl, rfl, fun m => ?_⟩
  simp only [simulate, hp, hang, hs, bind, Except.bind, pure, Except.pure]
  rw [← h]

/-- C147.  **Absorption darkens a sphere.**  Two complete runs for the same sphere with the same random numbers, the second with a larger absorption
coefficient: both succeed, and no photon contributes more to the reflectance or to the transmittance in the second.  The detector sees the whole
hemispheres, and either light that is sent back at the surface is not simulated further, or it always is (`max_stuck` negative). -/
theorem C147_sphere_absorption_partial {a : Init.Args nt} {S : Sampling nt num} {d : SphereArgs} {draws : ℕ → Draws nt num}
    (H : SphereDomain a S d draws) (hdet : d.detection_angle = Real.pi / 2)
    (hfine : d.fine_roughness = 0 ∨ ∀ p m, d.n_particle = some p → d.n_matrix = some m → d.n_sample ≤ max p m)
    (hrun : d.run_fresnel_traj = false ∨ d.max_stuck < 0) {mu : ℝ} (hmu : S.mu_abs ≤ mu) (nev : ℕ) :
    ∃ (rt rt' : RT nt) (R R' T T' : ℝ) (f f' g g' : Fin nt → ℝ), runSphere nev a S d draws = .ok rt ∧
      runSphere nev a { S with mu_abs := mu } d draws = .ok rt' ∧
      rt.R = fin R ∧ rt'.R = fin R' ∧ rt.T = fin T ∧ rt'.T = fin T' ∧ R' ≤ R ∧ T' ≤ T ∧
      (∀ j, rt.reflPer j = fin (f j) ∧ rt'.reflPer j = fin (f' j) ∧ f' j ≤ f j) ∧
      (∀ j, rt.transPer j = fin (g j) ∧ rt'.transPer j = fin (g' j) ∧ g' j ≤ g j) := by
  have hs : 0 < d.n_sample := lt_of_lt_of_le H.medium_pos H.not_denser
  have hns : d.optics.n_sample ≤ d.optics.n_tir :=
    nTir_ge (d := ⟨d.n_medium, d.n_sample, 0, 0, none, none, 0, d.fine_roughness, d.n_particle, d.n_matrix, none⟩) H.fine hfine
  obtain ⟨t, ht, hgen, hent⟩ := sphere_simulate H nev
  obtain ⟨p, step, hp, hstep, hm⟩ := simulate_mu ht
  obtain ⟨s, hs1, hs0⟩ := steps_real (nt := nt) H.mu_scat H.mu_mie H.fine_step H.rand_step H.rand_mie
  rw [hstep] at hs1
  injection hs1 with hs1
  subst hs1
  have hw0 := (sphere_result H.sphere H.smooth H.diameter hp).1
  have h1 := (hm S.mu_abs).symm.trans ht
  injection h1 with h1
  have h2 := hm mu
  have hon : OpticsOK d.nested := ⟨H.medium_pos, hs, fun x hx => (nomatch hx), fun x hx => (nomatch hx)⟩
  have ho : OpticsOK d.optics := ⟨H.medium_pos, lt_of_lt_of_le hs hns, H.front, H.back⟩
  have hb : ∀ i j, 0 ≤ absorb p.weight0 mu s i j ∧ absorb p.weight0 mu s i j ≤ t.weight i j ∧ t.weight i j ≤ 1 := by
    intro i j
    have e : t.weight i j = absorb p.weight0 S.mu_abs s i j := by rw [← h1]; rfl
    have hc := cumsum_nonneg (a := fun n => s n j) (fun n => hs0 n j) i
    have q1 := (att_facts H.mu_abs hs0).1 i j
    rw [e]
    simp only [absorb, hw0, one_mul]
    exact ⟨(Real.exp_pos _).le, Real.exp_le_exp.mpr (by nlinarith), q1.2⟩
  obtain ⟨rt, rt', f, f', g, g', c1, c2, q1, q2, q3, q4, q5, q6, q7, q8, hq⟩ := absorb_core H hon hrun hmu _ d.optics ho hs hns hdet d.max_call_depth 0 nev
    t.position t.direction t.weight (absorb p.weight0 mu s) rfl hb hgen.inside (fun _ => hent)
  refine ⟨rt, rt', _, _, _, _, f, f', g, g', ?_, ?_, q5, q6, q7, q8, Finset.sum_le_sum fun j _ => (hq j).1, Finset.sum_le_sum fun j _ => (hq j).2,
    fun j => ⟨q1 j, q2 j, (hq j).1⟩, fun j => ⟨q3 j, q4 j, (hq j).2⟩⟩
  · simp only [runSphere, ht, bind, Except.bind]
    exact c1
  · simp only [runSphere, h2, bind, Except.bind]
    exact c2

/-- Non-vacuity of C147: the sphere of `demo_sphereRun`, without re-runs. -/
example : ∃ (a : Init.Args 1) (S : Sampling 1 3) (d : SphereArgs) (draws : ℕ → Draws 1 3), SphereDomain a S d draws ∧
    d.detection_angle = Real.pi / 2 ∧ d.fine_roughness = 0 ∧ d.run_fresnel_traj = true ∧ d.max_stuck < 0 ∧ S.mu_abs = 1 := by
  have h := demo_sphereRun 1 zero_le_one
  exact ⟨_, _, ⟨1, 3 / 2, 2, none, none, Real.pi / 2, 0, none, none, true, 20, -1⟩, _, { h with }, rfl, rfl, rfl, by norm_num, rfl⟩

/-- the photon of the counterexample: steps of length 3 along the axis of a sphere of radius 1, moved and absorbed as the program does -/
def axisTrajs (mu : ℝ) : SphTrajs 1 :=
  ⟨move (fun _ _ => V3.zero) (fun _ _ => 3) (fun _ _ => ⟨0, 0, 1⟩), fun _ _ => ⟨0, 0, 1⟩, fun i j => fin (absorb (fun _ _ => 1) mu (fun _ _ => 3) i j)⟩

/-- the random numbers of its re-runs: all steps have length 18 (for a scattering coefficient of 1) -/
def axisDraws : ℕ → Draws 1 3 := fun _ => ⟨fun _ _ => 1, fun _ _ => 0, fun _ _ => 1 - Real.exp (-18), fun _ => 1 / 2⟩

/-- its sphere: index 3/2 in air, diameter 2, everything else as by default -/
def axisArgs : SphereArgs := ⟨1, 3 / 2, 2, none, none, Real.pi / 2, 0, none, none, true, 20, 1 / 100⟩

theorem axis_domain (mu : ℝ) (hmu : 0 ≤ mu) : SphereDomain (nt := 1) (num := 3)
    ⟨1, 3 / 2, .sphere, 0, 0, none, 0, 0, none, 1, some 2, 0, fun _ => 0, fun _ => 0, fun _ => 0, fun _ => 0, fun _ => 1 / 2,
      fun _ => 0, fun _ => 0⟩ (demoSampling mu) axisArgs axisDraws :=
  { demo_sphereRun mu hmu with
    rerun_phi := fun _ _ _ => ⟨le_rfl, one_pos⟩
    rerun_step := fun _ _ _ => by
      have h1 := Real.exp_pos (-18)
      have h2 : Real.exp (-18) ≤ 1 := Real.exp_le_one_iff.mpr (by norm_num)
      simp only [axisDraws]
      constructor <;> linarith
    rerun_mie := fun _ _ => by norm_num [axisDraws] }

theorem axis_pos (i : ℕ) (j : Fin 1) : move (fun _ _ => V3.zero) (fun _ _ => 3) (fun _ _ => ⟨0, 0, 1⟩) i j = ⟨0, 0, 3 * i⟩ := by
  induction i with
  | zero =>
    rw [(C33_move_steps (fun _ _ => V3.zero) (fun _ _ => 3) (fun _ _ => ⟨0, 0, 1⟩) 0 j).1]
    simp [V3.zero]
  | succ n ih =>
    have e1 := (C33_move_steps (fun _ _ => V3.zero) (fun _ _ => 3) (fun _ _ => ⟨0, 0, 1⟩) n j).2
    rw [ih] at e1
    generalize move (fun _ _ => V3.zero) (fun _ _ => 3) (fun _ _ => ⟨0, 0, 1⟩) (n + 1) j = z at e1 ⊢
    simp only [V3.sub, V3.smul, V3.mk.injEq] at e1
    ext <;> push_cast <;> linarith [e1.1, e1.2.1, e1.2.2]

theorem axis_exit (mu : ℝ) (j : Fin 1) : SphereExit 1 (V3.sub ((axisTrajs mu).position 0 j) ⟨0, 0, 1⟩) (V3.sub ((axisTrajs mu).position (0 + 1) j) ⟨0, 0, 1⟩)
    ((axisTrajs mu).direction 0 j) ⟨0, 0, 1⟩ := by
  have p0 : (axisTrajs mu).position 0 j = ⟨0, 0, 0⟩ := (axis_pos 0 j).trans (by norm_num)
  have p1 : (axisTrajs mu).position (0 + 1) j = ⟨0, 0, 3⟩ := (axis_pos 1 j).trans (by norm_num)
  have k0 : (axisTrajs mu).direction 0 j = ⟨0, 0, 1⟩ := rfl
  rw [p0, p1, k0]
  refine ⟨one_pos, by norm_num [V3.normSq, V3.dot, V3.sub], by norm_num [V3.normSq, V3.dot, V3.sub], ?_,
      by norm_num [V3.normSq, V3.dot], ⟨3, by norm_num, ?_⟩, ⟨2, by norm_num, ?_⟩, by norm_num [V3.normSq, V3.dot]⟩
  · norm_num [Geometry.Bounded, V3.sub, abs_of_pos]
  · ext <;> norm_num [V3.sub, V3.smul]
  · ext <;> norm_num [V3.add, V3.sub, V3.smul]

/-- what the first call of `calc_refl_trans` finds for it -/
theorem axis_level (mu : ℝ) : ∃ l : Level 1,
    level axisArgs.optics (sphereGeometry 1 axisArgs.optics 2 (axisTrajs mu)) none false (fun (e : Fin 1) j => (axisTrajs mu).weight e j) = .ok l ∧
    l.totalStuck = fin (batchPass * Real.exp (-(mu * 3)) * (1 - batchPass)) ∧
    (∀ j, Restart.restartWeight l.exit.reflFresnel l.exit.transFresnel l.out.stuck j = fin (batchPass * Real.exp (-(mu * 3)) * (1 - batchPass))) ∧
    (∀ j, l.det.trans j = fin (batchPass * Real.exp (-(mu * 3)) * batchPass)) ∧
    (distribute l.exit l.det l.out.stuck .sphere false).T =
      fin (batchPass * Real.exp (-(mu * 3)) * batchPass + batchPass * Real.exp (-(mu * 3)) * (1 - batchPass) / 2) := by
  have hopt : axisArgs.optics = ⟨1, 3 / 2, 3 / 2, none, none, Real.pi / 2⟩ := by
    simp [axisArgs, SphereArgs.optics, Weights.nTir]
  rw [hopt]
  have H : BallBundle 1 (axisTrajs mu) (0 + 1) (fun e j => absorb (fun _ _ => 1) mu (fun _ _ => 3) e j) (fun _ => ⟨0, 0, 1⟩) := by
    have p0 : ∀ j, (axisTrajs mu).position 0 j = ⟨0, 0, 0⟩ := fun j => (axis_pos 0 j).trans (by norm_num)
    refine ⟨fun j => ?_, fun j => ?_, fun j => ?_, fun j e hl => ?_, fun e j => rfl⟩
    · rw [p0]; norm_num [V3.sub, V3.normSq, V3.dot]
    · norm_num [axisTrajs, V3.normSq, V3.dot]
    · rw [p0]; norm_num [axisTrajs, V3.sub, V3.smul, V3.dot]
    · have he : e = 0 := Fin.fin_one_eq_zero e
      subst he
      exact axis_exit mu j
  have hl : ∀ j : Fin 1, LeavesBall 1 ⟨0, 0, 1⟩ (fun r : Fin 2 => (axisTrajs mu).position r j) 0 := fun j =>
    ⟨(axis_exit mu j).outside, fun e' he' => absurd he' (Fin.not_lt_zero e')⟩
  have hkz : ∀ j : Fin 1, ExitKzIs 1 (3 / 2) 1 (fun r : Fin 2 => (axisTrajs mu).position r j) (fun e : Fin 1 => (axisTrajs mu).direction e j)
      (fun _ => some 1) := by
    intro j e _
    have he : e = 0 := Subsingleton.elim _ _
    subst he
    have := (C24_sphere_straight_partial (axis_exit mu j) (n1 := 3 / 2) (n2 := 1) (by norm_num) one_pos (Or.inr (by
      ext <;> norm_num [V3.cross, V3.smul, V3.zero, axisTrajs]))).1
    have hz : ((axisTrajs mu).direction 0 j).z = 1 := rfl
    rw [hz] at this
    simpa [exitKzOf] using this
  have hf : ∀ j : Fin 1, IsBallFate 1 ⟨0, 0, 1⟩ (fun r : Fin 2 => (axisTrajs mu).position r j) (fun _ => some 1) (.transmitted 0) :=
    fun j => ⟨hl j, 1, rfl, one_pos⟩
  obtain ⟨h1, h2, h3⟩ := ball_numbers (pos := rowsP (0 + 1) (axisTrajs mu).position) (dir := rowsD (0 + 1) (axisTrajs mu).direction)
    (ns := 3 / 2) (nm := 1) (R := 1) (kz := fun _ _ => some 1) (fate := fun _ => .transmitted 0) hkz hf
  obtain ⟨l, c, ir, hlev, hL, hr, ht, hs, hpr, hpt, hdr, hdt, -⟩ := ball_level one_pos (o := ⟨1, 3 / 2, 3 / 2, none, none, Real.pi / 2⟩)
    ⟨one_pos, by norm_num, fun x hx => (nomatch hx), fun x hx => (nomatch hx)⟩ (by norm_num) H h1 h2 h3
    (fun j e he => (nomatch he)) (fun j e he => by
      have : e = 0 := Fin.fin_one_eq_zero e
      subst this
      exact hl j)
  have hpos0 : (axisTrajs mu).position 0 0 = ⟨0, 0, 0⟩ := (axis_pos 0 0).trans (by norm_num)
  have hang : Real.arccos (V3.dot (V3.smul (-1 / 1) (V3.sub ((axisTrajs mu).position 0 0) ⟨0, 0, 1⟩)) ((axisTrajs mu).direction 0 0)) = 0 := by
    rw [hpos0]
    norm_num [axisTrajs, V3.sub, V3.smul, V3.dot]
  have hang2 : Real.arccos (V3.dot (V3.smul (1 / 1) ⟨0, 0, 1⟩) ((axisTrajs mu).direction 0 0)) = 0 := by
    norm_num [axisTrajs, V3.smul, V3.dot]
  have hw : absorb (fun (_ : ℕ) (_ : Fin 1) => (1 : ℝ)) mu (fun _ _ => 3) 0 0 = Real.exp (-(mu * 3)) := by simp [absorb, cumsum]
  have hp1 : platePass 1 none (3 / 2) 0 = batchPass := batch_pass.1
  have hp2 : platePass (3 / 2) none 1 0 = batchPass := batch_pass.2
  have er : c.r 0 = 0 := by rw [hr]; simp [ballPhotons, Fate.reflEvent, valueAt]
  have et : c.t 0 = batchPass * Real.exp (-(mu * 3)) := by
    rw [ht]
    simp only [ballPhotons, Fate.transEvent, valueAt, Optics.medium, hang, hp1, Fin.val_zero, hw]
  have es : c.s 0 = 0 := by rw [hs]; simp [ballPhotons, Fate.lastEvent, valueAt]
  have ept : c.pt 0 = batchPass := by
    rw [hpt]
    simp only [ballPhotons, Fate.transEvent, valueAt, Optics.medium, Fin.val_zero, hang2, hp2]
  have hseen : SeenWithin (3 / 2) 1 (Real.pi / 2) 0 := ⟨0, ⟨by linarith [Real.pi_pos], by linarith [Real.pi_pos]⟩, by simp [Snell], by linarith [Real.pi_pos]⟩
  have edt : c.dt (3 / 2) 1 (Real.pi / 2) 0 = batchPass * Real.exp (-(mu * 3)) * batchPass := by
    have := hdt 0
    simp only at this
    rw [this, ← ht, ← hpt, et, ept, if_pos]
    simp only [ballPhotons, Fate.transEvent, valueAt, Optics.medium, Fin.val_zero, hang2]
    exact hseen
  have ePt : c.Pt 0 = batchPass * Real.exp (-(mu * 3)) * batchPass := by unfold RIn.Pt; rw [et, ept]
  have efr : c.fr 0 = 0 := by unfold RIn.fr RIn.Pr; rw [er]; ring
  have eft : c.ft 0 = batchPass * Real.exp (-(mu * 3)) * (1 - batchPass) := by unfold RIn.ft; rw [ePt, et]; ring
  have hn1 : ((1 : ℕ) : ℝ) ≠ 0 := by norm_num
  have etdf : c.tdf (3 / 2) 1 (Real.pi / 2) = 1 := by
    unfold RIn.tdf
    rw [Finset.univ_unique, Finset.sum_singleton, Finset.sum_singleton, Fin.default_eq_zero, edt, ePt]
    exact div_self (RIn.maxEPS_pos _).ne'
  refine ⟨l, by rw [mul_one] at hlev; exact hlev, ?_, ?_, ?_, ?_⟩
  · rw [hL.total, fin_div _ hn1, Finset.univ_unique, Finset.sum_singleton, Fin.default_eq_zero, efr, eft, es, fin_inj]
    norm_num
  · intro j
    have hj : j = 0 := Subsingleton.elim _ _
    subst hj
    rw [Restart.restartWeight, hL.reflFresnel, hL.transFresnel, hL.stuck]
    simp only [fin_add, efr, eft, es, fin_inj]
    ring
  · intro j
    have hj : j = 0 := Subsingleton.elim _ _
    subst hj
    rw [hL.trans]
    simp only [edt]
  · show ∑ j, (distribute l.exit l.det l.out.stuck .sphere false).transPer j = _
    rw [Finset.univ_unique, Finset.sum_singleton, Fin.default_eq_zero]
    simp only [distribute, hL.reflFresnel, hL.transFresnel, hL.stuck, hL.trans, hL.tdf, fin_add, fin_mul, fin_div _ hn1, fin_inj, edt, etdf, efr, eft, es]
    norm_num
    ring

/-- the next generation, all of whose steps have length 18 -/
theorem axis_rerun {mu : ℝ} (hmu : 0 ≤ mu) (nevents depth : ℕ) {start : Fin 1 → XV × XV} {ω : ℝ}
    (hstart : ∀ j, ∃ p : V3, (start j).1 = ofV3 p ∧ (V3.sub p ⟨0, 0, 2 / 2⟩).normSq ≤ (2 / 2) * (2 / 2)) :
    ∃ t, rerun nevents ⟨(demoSampling mu).p, 1, none, mu⟩ (axisDraws depth) start (fun _ => fin ω) = .ok t ∧
      GenOK 2 mu (fun _ => ω * Real.exp (-(mu * 18))) t := by
  have H := axis_domain mu hmu
  obtain ⟨ang, hang, _, _, hcons⟩ := C35_sample_angles_1d (nt := 1) nevents (demoSampling mu).p (1 / 100) (axisDraws depth).draw_theta
    (axisDraws depth).rand_phi H.phase (by norm_num) (by linarith [Real.two_le_pi]) H.phase_pos_rerun (H.rerun_phi depth)
  have hs : sampleStep 1 1 none 0 (axisDraws depth).rand_step (axisDraws depth).rand_mie = .ok fun _ _ => fin 18 := by
    unfold sampleStep
    rw [if_neg (by norm_num)]
    simp only [axisDraws, sub_sub_cancel, Real.log_exp, neg_neg, fin_div _ (one_ne_zero (α := ℝ)), div_one]
  have hval : ∀ r : ℝ, val (fin r) = r := fun _ => rfl
  have hc : ∀ i, 18 ≤ cumsum (fun _ => (18 : ℝ)) i := by
    intro i
    induction i with
    | zero => exact le_rfl
    | succ n ih => rw [cumsum]; linarith
  refine ⟨_, by simp only [rerun, hang, hs, bind, Except.bind, pure, Except.pure, hval, fin_mul]; rfl, ?_, ?_⟩
  · intro j
    dsimp only
    rw [(C33_move_steps _ _ _ 0 j).1]
    obtain ⟨p, hp, hp'⟩ := hstart j
    rw [if_pos rfl, hp]
    exact hp'
  · refine ⟨fun i _ => Real.exp (-(mu * (cumsum (fun _ => (18 : ℝ)) i - 18))), fun i j => ?_, fun i j => ⟨(Real.exp_pos _).le, ?_⟩, fun h i j => ?_⟩
    · dsimp only
      rw [fin_inj, mul_assoc, ← Real.exp_add]
      congr 2
      ring
    · rw [Real.exp_le_one_iff]
      have := mul_nonneg hmu (sub_nonneg.mpr (hc i))
      linarith
    · rw [h]; simp

/-- **C147, refuted for re-runs that stop at `max_stuck`.**  A photon goes straight through a glass sphere of diameter 2, and what is sent back at the
far side is simulated again unless it is less than `max_stuck = 1/100` (the defaults of `calc_refl_trans`).  For some absorption coefficients
`mu₁ < mu₂` and the same random numbers the transmittance is larger with the larger absorption coefficient: the light sent back falls below the
threshold, and half of it is then counted as transmitted. -/
theorem C147_threshold_refuted : ∃ mu₁ mu₂ : ℝ, 0 < mu₁ ∧ mu₁ < mu₂ ∧ ∃ (rt₁ rt₂ : RT 1) (T₁ T₂ : ℝ),
    calcSphere 2 ⟨(demoSampling mu₁).p, 1, none, mu₁⟩ axisDraws true (1 / 100) axisArgs.nested axisArgs.optics 20 0 1 (axisTrajs mu₁) = .ok rt₁ ∧
    calcSphere 2 ⟨(demoSampling mu₂).p, 1, none, mu₂⟩ axisDraws true (1 / 100) axisArgs.nested axisArgs.optics 20 0 1 (axisTrajs mu₂) = .ok rt₂ ∧
    rt₁.T = fin T₁ ∧ rt₂.T = fin T₂ ∧ T₁ < T₂ := by
  set b := batchPass with hb
  have hb1 : b < 96 / 100 := by rw [hb, batchPass]; norm_num
  have hb2 : 959 / 1000 < b := by rw [hb, batchPass]; norm_num
  set κ := b * (1 - b) with hκ
  have hκ1 : 38 / 1000 < κ := by nlinarith
  have hκ0 : 0 < κ := by linarith
  set w₂ := 1 / (100 * κ) with hw₂
  have hw2 : κ * w₂ = 1 / 100 := by rw [hw₂]; field_simp
  have hw20 : 0 < w₂ := by positivity
  have hw2' : w₂ < 264 / 1000 := by nlinarith
  set w₁ := 101 / 100 * w₂ with hw₁
  have hw10 : 0 < w₁ := by positivity
  have hw1' : w₁ < 27 / 100 := by linarith
  have hlog : Real.log w₂ < Real.log w₁ := Real.log_lt_log hw20 (by linarith)
  have hlog1 : Real.log w₁ < 0 := Real.log_neg hw10 (by linarith)
  have hpos1 : 0 < -Real.log w₁ / 3 := by linarith
  have e1 : Real.exp (-(-Real.log w₁ / 3 * 3)) = w₁ := by rw [show -(-Real.log w₁ / 3 * 3) = Real.log w₁ by ring, Real.exp_log hw10]
  have e2 : Real.exp (-(-Real.log w₂ / 3 * 3)) = w₂ := by rw [show -(-Real.log w₂ / 3 * 3) = Real.log w₂ by ring, Real.exp_log hw20]
  have e3 : Real.exp (-(-Real.log w₁ / 3 * 18)) = w₁ ^ 6 := by
    rw [show -(-Real.log w₁ / 3 * 18) = (6 : ℕ) * Real.log w₁ by push_cast; ring, Real.exp_nat_mul, Real.exp_log hw10]
  obtain ⟨l₁, h₁, s₁, W₁, d₁, -⟩ := axis_level (-Real.log w₁ / 3)
  obtain ⟨l₂, h₂, s₂, -, -, d₂⟩ := axis_level (-Real.log w₂ / 3)
  rw [e1, ← hb] at s₁ d₁ W₁
  rw [e2, ← hb] at s₂ d₂
  have hst1 : (fin (1 / 100) : XF) < l₁.totalStuck := by rw [s₁, fin_lt]; nlinarith
  have hst2 : ¬ (fin (1 / 100) : XF) < l₂.totalStuck := by rw [s₂, fin_lt]; nlinarith
  have H := axis_domain (-Real.log w₁ / 3) hpos1.le
  set t₁ := axisTrajs (-Real.log w₁ / 3) with ht₁
  have hin : ∀ j, (V3.sub (t₁.position 0 j) ⟨0, 0, 2 / 2⟩).normSq ≤ (2 / 2) * (2 / 2) := by
    intro j
    have p0 : t₁.position 0 j = ⟨0, 0, 0⟩ := (axis_pos 0 j).trans (by norm_num)
    rw [p0]; norm_num [V3.sub, V3.normSq, V3.dot]
  set I := sphereEvents 1 axisArgs.optics 2 t₁ with hI
  have hcase := fun j => sphere_cases axisArgs.optics.n_tir axisArgs.optics.n_medium 2 (rowsP 1 t₁.position) (rowsD 1 t₁.direction) j
  obtain ⟨F, hF, hFin⟩ := restart_inside (D := 2) (dir := rowsD 1 t₁.direction) two_pos (pos := rowsP 1 t₁.position) hin
    (idx := Restart.restartIndices I.1 I.2.1 I.2.2.2) (by
      intro j
      show Restart.restartIndices _ _ _ j = 0 ∨ ∃ e : Fin 1, _ ∧ Restart.restartIndices _ _ _ j = _
      unfold Restart.restartIndices
      rcases hcase j with ⟨h1, h2, -, h3⟩ | ⟨e, he, ⟨h1, h2, -, h3⟩ | ⟨h1, h2, -, h3⟩ | ⟨h1, h2, -, h3⟩⟩
      · have e1 : I.1 j = 0 := h1
        have e2 : I.2.1 j = 0 := h2
        have e3 : I.2.2.2 j = 0 := h3
        exact Or.inl (by omega)
      · have e1 : I.1 j = e.val + 1 := h1
        have e2 : I.2.1 j = 0 := h2
        have e3 : I.2.2.2 j = 0 := h3
        exact Or.inr ⟨e, he, by omega⟩
      · have e1 : I.1 j = 0 := h1
        have e2 : I.2.1 j = e.val + 1 := h2
        have e3 : I.2.2.2 j = 0 := h3
        exact Or.inr ⟨e, he, by omega⟩
      · have e1 : I.1 j = 0 := h1
        have e2 : I.2.1 j = 0 := h2
        have e3 : I.2.2.2 j = e.val + 1 := h3
        exact Or.inr ⟨e, he, by omega⟩)
  have hωv : b * w₁ * (1 - b) = 101 / 10000 := by
    rw [hw₁]; linear_combination (101 / 100) * hw2
  rw [hωv] at W₁
  obtain ⟨t', hr, hgen⟩ := axis_rerun hpos1.le (1 + 1) (0 + 1) (ω := 101 / 10000) hFin
  have hw6 : w₁ ^ 6 < 1 / 1000 := by
    calc w₁ ^ 6 < (27 / 100) ^ 6 := pow_lt_pow_left₀ hw1' hw10.le (by norm_num)
      _ < 1 / 1000 := by norm_num
  have hw60 : 0 < w₁ ^ 6 := by positivity
  rw [e3] at hgen
  obtain ⟨r, R, T, i, hc, hR, hT, hR0, hT0, -, hi1, hRT, -, -⟩ := sphere_bound H (sphere_optics H).2 _ axisArgs.nested (sphere_optics H).2
    defaultMaxCallDepth (0 + 1) (1 + 1) t' _ rfl (fun _ => ⟨by nlinarith, by nlinarith⟩) hgen (fun h => absurd h (by omega))
  rw [Finset.univ_unique, Finset.sum_singleton, Fin.default_eq_zero, hi1 (by omega)] at hRT
  have hTle : T ≤ 101 / 10000 * w₁ ^ 6 := by
    push_cast at hRT
    linarith
  have hWf : Restart.restartWeight l₁.exit.reflFresnel l₁.exit.transFresnel l₁.out.stuck = fun _ => (fin (101 / 10000) : XF) := funext W₁
  have hn1 : ((1 : ℕ) : ℝ) ≠ 0 := by norm_num
  refine ⟨-Real.log w₁ / 3, -Real.log w₂ / 3, hpos1, by linarith,
    { R := r.R + ∑ j, (l₁.det.refl j + l₁.det.incRefl j) / fin (1 : ℕ)
      T := r.T + ∑ j, l₁.det.trans j / fin (1 : ℕ)
      reflPer := fun j => r.reflPer j + (l₁.det.refl j + l₁.det.incRefl j) / fin (1 : ℕ)
      transPer := fun j => r.transPer j + l₁.det.trans j / fin (1 : ℕ) },
    distribute l₂.exit l₂.det l₂.out.stuck .sphere false, T + b * w₁ * b, b * w₂ * b + b * w₂ * (1 - b) / 2, ?_, ?_, ?_, d₂, ?_⟩
  · rw [← ht₁, calcSphere]
    simp only [lt_self_iff_false, decide_false, h₁, bind, Except.bind, pure, Except.pure]
    rw [dif_pos ⟨trivial, by norm_num, hst1⟩]
    simp only [← hI, hF, hWf, hr]
    have hc' : calcSphere 2 ⟨(demoSampling (-Real.log w₁ / 3)).p, 1, none, -Real.log w₁ / 3⟩ axisDraws true (1 / 100) axisArgs.nested axisArgs.nested
      defaultMaxCallDepth (0 + 1) (1 + 1) t' = .ok r := hc
    simp only [hc']
  · rw [calcSphere]
    simp only [lt_self_iff_false, decide_false, h₂, bind, Except.bind, pure, Except.pure]
    rw [dif_neg (fun h => hst2 h.2.2)]
  · dsimp only
    rw [hT, Finset.univ_unique, Finset.sum_singleton, Fin.default_eq_zero, d₁, fin_div _ hn1, fin_add, fin_inj]
    norm_num
  · have h5 : b * w₂ * (1 - b) = 1 / 100 := by linear_combination hw2
    have h6 : b * w₁ * b = b * w₂ * b + 1 / 100 * (b * w₂ * b) := by rw [hw₁]; ring
    have h7 : b * w₂ * b ≤ w₂ := by nlinarith
    rw [h5, h6]
    nlinarith

end
end Verif.Props
