import Verif.Props.Metamorphic2
import Verif.Props.SphereRun
import Verif.Props.SphereEstimator

/-!
# C98 for spheres, with all generations of re-started photons; C99 for spheres
-/

namespace Verif.Props
noncomputable section
open Classical Verif.Spec Verif.Root Verif.Fresnel Verif.Exits Verif.Weights XF
open Verif.Simulation Verif.Traj Verif.SphereRun Verif.Restart
open Verif.Geometry (ofV3)

variable {nt num : ℕ}

/-- The same trajectories in a sphere, in another order. -/
def permSph (σ : Equiv.Perm (Fin nt)) (t : SphTrajs nt) : SphTrajs nt :=
  ⟨fun i j => t.position i (σ j), fun i j => t.direction i (σ j), fun i j => t.weight i (σ j)⟩

/-- The same random numbers, handed out to the trajectories in another order. -/
def permDraws (σ : Equiv.Perm (Fin nt)) (g : Draws nt num) : Draws nt num :=
  ⟨fun i j => g.draw_theta i (σ j), fun i j => g.rand_phi i (σ j), fun i j => g.rand_step i (σ j), g.rand_mie⟩

private theorem XF.trichotomy4 (k : XF) : k < fin 0 ∨ fin 0 < k ∨ k = nan ∨ k = fin 0 := by
  cases k with
  | fin r =>
    rcases lt_trichotomy r 0 with h | h | h
    · exact Or.inl ((fin_lt _ _).2 h)
    · exact Or.inr (Or.inr (Or.inr (by rw [h])))
    · exact Or.inr (Or.inl ((fin_lt _ _).2 h))
  | pinf => exact Or.inr (Or.inl trivial)
  | ninf => exact Or.inl trivial
  | nan => exact Or.inr (Or.inr (Or.inl rfl))

private def permOutcome (σ : Equiv.Perm (Fin nt)) (O : Outcome nt) : Outcome nt :=
  ⟨fun j => O.refl (σ j), fun j => O.trans (σ j), fun j => O.stuck (σ j), fun j => O.absorb (σ j), O.warn⟩

private def permLevel (σ : Equiv.Perm (Fin nt)) (l : Level nt) : Level nt :=
  ⟨fun j => l.inc (σ j), permOutcome σ l.out, permExit σ l.exit, permDet σ l.det, l.totalStuck⟩

private theorem outcome_perm {nev : ℕ} (σ : Equiv.Perm (Fin nt)) (inc : Fin nt → XF) (ri ti si : Fin nt → ℕ) (w : Fin nev → Fin nt → XF) :
    calcOutcomeWeights (fun j => inc (σ j)) (fun j => ri (σ j)) (fun j => ti (σ j)) (fun j => si (σ j)) (fun e j => w e (σ j)) =
      permOutcome σ (calcOutcomeWeights inc ri ti si w) := by
  unfold calcOutcomeWeights permOutcome
  have e : ∀ ev : Fin nt → ℕ, sel (fun e j => w e (σ j)) (fun j => ev (σ j)) = fun j => sel w ev (σ j) := fun _ => rfl
  simp only [e, sum_perm σ fun j => inc j * sel w si j, sum_perm σ inc]

private theorem exit_perm (σ : Equiv.Perm (Fin nt)) (ns nm : ℝ) (nf nb : Option ℝ) (a b c d e : Fin nt → XF) (f : Bool) :
    fresnelCorrectExit ns nm nf nb (fun j => a (σ j)) (fun j => b (σ j)) (fun j => c (σ j)) (fun j => d (σ j)) (fun j => e (σ j)) f =
      (fresnelCorrectExit ns nm nf nb a b c d e f).map (permExit σ) := by
  unfold fresnelCorrectExit
  simp only [passFrac_perm σ]
  cases fresnelPassFrac a ns nf nm with
  | error e => rfl
  | ok pR =>
    cases fresnelPassFrac b ns nb nm with
    | error e => rfl
    | ok pT =>
      simp only [Except.map, bind, Except.bind, pure, Except.pure, permExit]
      simp only [sum_perm σ fun j => c j * pR j, sum_perm σ fun j => d j * pT j, sum_perm σ fun j => e j + c j * pR j + d j * pT j]

private theorem level_perm {nev : ℕ} (σ : Equiv.Perm (Fin nt)) (o : Optics) (g : Weights.Geometry nt) (b : Bool)
    (w : Fin nev → Fin nt → XF) :
    level o (permGeo σ g) none b (fun e j => w e (σ j)) = (level o g none b w).map (permLevel σ) := by
  have hinc : incPassFrac b (fun j => g.thInc (σ j)) o.n_medium o.n_front o.n_tir =
      (incPassFrac b g.thInc o.n_medium o.n_front o.n_tir).map fun p j => p (σ j) := by
    cases b
    · exact passFrac_perm σ _ _ _ _
    · rfl
  unfold level
  simp only [permGeo, hinc]
  cases incPassFrac b g.thInc o.n_medium o.n_front o.n_tir with
  | error e => rfl
  | ok inc =>
    simp only [Except.map, bind, Except.bind, pure, Except.pure, outcome_perm σ]
    have h := exit_perm σ o.n_tir o.n_medium o.n_front o.n_back g.thRefl g.thTrans (calcOutcomeWeights inc g.ri g.ti g.si w).refl
      (calcOutcomeWeights inc g.ri g.ti g.si w).trans (calcOutcomeWeights inc g.ri g.ti g.si w).absorb b
    simp only [permOutcome, h]
    cases fresnelCorrectExit o.n_tir o.n_medium o.n_front o.n_back g.thRefl g.thTrans (calcOutcomeWeights inc g.ri g.ti g.si w).refl
      (calcOutcomeWeights inc g.ri g.ti g.si w).trans (calcOutcomeWeights inc g.ri g.ti g.si w).absorb b with
    | error e => rfl
    | ok X =>
      simp only [Except.map, permExit, permLevel, permOutcome]
      rw [← detect_perm σ inc o.n_sample o.n_medium g.thIncDet g.thRefl g.thTrans X.reflPass X.transPass o.detection_angle none,
        ← sum_perm σ fun j => X.reflFresnel j + X.transFresnel j + (calcOutcomeWeights inc g.ri g.ti g.si w).stuck j]
      rfl

private theorem scatter_perm (σ : Equiv.Perm (Fin nt)) (n : ℕ) (kn : ℕ → Fin nt → V3) (st ct sp cp : ℕ → Fin nt → ℝ) :
    scatter n (fun i j => kn i (σ j)) (fun i j => st i (σ j)) (fun i j => ct i (σ j)) (fun i j => sp i (σ j)) (fun i j => cp i (σ j)) =
      fun i j => scatter n kn st ct sp cp i (σ j) := by
  unfold scatter
  generalize List.range' 1 (n - 1) = L
  induction L generalizing kn with
  | nil => rfl
  | cons a L ih =>
    rw [List.foldl_cons, List.foldl_cons, ← ih]
    congr 1
    funext i j
    by_cases h : i = a
    · subst h; simp [scatterBody]
    · simp [scatterBody, h]

private theorem rerun_perm (σ : Equiv.Perm (Fin nt)) (n : ℕ) (m : Medium num) (g : Draws nt num) (start : Fin nt → Geometry.XV × Geometry.XV)
    (W : Fin nt → XF) :
    rerun n m (permDraws σ g) (fun j => start (σ j)) (fun j => W (σ j)) = (rerun n m g start W).map (permSph σ) := by
  have hstep : sampleStep nt m.mu_scat m.mu_scat_mie 0 (permDraws σ g).rand_step (permDraws σ g).rand_mie =
      (sampleStep nt m.mu_scat m.mu_scat_mie 0 g.rand_step g.rand_mie).map fun s i j => s i (σ j) := by
    unfold sampleStep
    rw [if_neg (by norm_num), if_neg (by norm_num)]
    cases m.mu_scat_mie with
    | none => rfl
    | some mu =>
      have h0 : (pyRound ((nt : ℝ) * 0)).toNat = 0 := by
        rw [mul_zero]
        norm_num [pyRound]
      simp only [h0, Nat.not_lt_zero, and_false, if_false]
      rfl
  have hang : sampleAngles1 n m.p (1 / 100) (permDraws σ g).draw_theta (permDraws σ g).rand_phi =
      (sampleAngles1 n m.p (1 / 100) g.draw_theta g.rand_phi).map fun a =>
        ⟨fun i j => a.sintheta i (σ j), fun i j => a.costheta i (σ j), fun i j => a.sinphi i (σ j), fun i j => a.cosphi i (σ j),
          fun i j => a.theta i (σ j), fun i j => a.phi i (σ j), a.rows⟩ := by
    unfold sampleAngles1
    dsimp only
    split <;> rfl
  unfold rerun
  rw [hstep, hang]
  cases sampleAngles1 n m.p (1 / 100) g.draw_theta g.rand_phi with
  | error e => rfl
  | ok a =>
    cases sampleStep nt m.mu_scat m.mu_scat_mie 0 g.rand_step g.rand_mie with
    | error e => rfl
    | ok s =>
      simp only [Except.map, bind, Except.bind, pure, Except.pure]
      have h := scatter_perm σ n (fun i j => if i = 0 then Simulation.valV (start j).2 else V3.zero) a.sintheta a.costheta a.sinphi a.cosphi
      have hm : ∀ (p : ℕ → Fin nt → V3) (st : ℕ → Fin nt → ℝ) (k : ℕ → Fin nt → V3),
          move (fun i j => p i (σ j)) (fun i j => st i (σ j)) (fun i j => k i (σ j)) = fun i j => move p st k i (σ j) := by
        intro p st k
        funext i j
        unfold move
        congr 1
        funext n
        cases n <;> rfl
      rw [h, hm (fun i j => if i = 0 then Simulation.valV (start j).1 else V3.zero) (fun i j => Simulation.val (s i j))]
      rfl

private theorem restart_perm {nev : ℕ} (σ : Equiv.Perm (Fin nt)) (D : ℝ) (pos : Fin (nev + 1) → Fin nt → V3) (dir : Fin nev → Fin nt → V3)
    (idx : Fin nt → ℕ) :
    restart D (fun e j => pos e (σ j)) (fun e j => dir e (σ j)) (fun j => idx (σ j)) = (restart D pos dir idx).map fun s j => s (σ j) := by
  unfold restart
  simp only [exists_perm σ fun j => nev < idx j]
  split <;> rfl

private theorem firstEvent_perm {nev : ℕ} (σ : Equiv.Perm (Fin nt)) (T : Fin nev → Fin nt → Bool) :
    firstEvent (fun e j => T e (σ j)) = fun j => firstEvent T (σ j) := rfl

private theorem kz_perm {nev : ℕ} (σ : Equiv.Perm (Fin nt)) (ns nm D : ℝ) (pos : Fin (nev + 1) → Fin nt → V3) (dir : Fin nev → Fin nt → V3) :
    kzCorrect ns nm D (fun e j => pos e (σ j)) (fun e j => dir e (σ j)) = fun j => kzCorrect ns nm D pos dir (σ j) := by
  have hp : potentialIndices D (fun e j => pos e (σ j)) = fun j => potentialIndices D pos (σ j) := rfl
  have hs : ∀ (a : Fin nev → Fin nt → V3) (idx : Fin nt → ℕ) (j : Fin nt), selV (fun e j => a e (σ j)) (fun j => idx (σ j)) j = selV a idx (σ j) :=
    fun _ _ _ => rfl
  funext j
  unfold kzCorrect
  simp only [hp]
  rw [hs (fun e j => centred D (pos e.castSucc j)) (potentialIndices D pos), hs (fun e j => centred D (pos e.succ j)) (potentialIndices D pos),
    hs dir (potentialIndices D pos)]

private theorem tables_perm {nev : ℕ} (σ : Equiv.Perm (Fin nt)) (ns nm D : ℝ) (pos : Fin (nev + 1) → Fin nt → V3) (dir : Fin nev → Fin nt → V3) :
    sphereTables ns nm D (fun e j => pos e (σ j)) (fun e j => dir e (σ j)) =
      ⟨fun e j => (sphereTables ns nm D pos dir).pos e (σ j), fun e j => (sphereTables ns nm D pos dir).neg e (σ j),
        fun e j => (sphereTables ns nm D pos dir).tir e (σ j)⟩ := by
  unfold sphereTables
  rw [kz_perm]
  rfl

private theorem events_perm (σ : Equiv.Perm (Fin nt)) (nev : ℕ) (o : Optics) (D : ℝ) (t : SphTrajs nt) :
    sphereEvents nev o D (permSph σ t) = (fun j => (sphereEvents nev o D t).1 (σ j), fun j => (sphereEvents nev o D t).2.1 (σ j),
      fun j => (sphereEvents nev o D t).2.2.1 (σ j), fun j => (sphereEvents nev o D t).2.2.2 (σ j)) := by
  have h := tables_perm σ o.n_tir o.n_medium D (rowsP nev t.position) (rowsD nev t.direction)
  have e : sphereTables o.n_tir o.n_medium D (rowsP nev (permSph σ t).position) (rowsD nev (permSph σ t).direction) =
    sphereTables o.n_tir o.n_medium D (fun e j => rowsP nev t.position e (σ j)) (fun e j => rowsD nev t.direction e (σ j)) := rfl
  unfold sphereEvents
  simp only [e, h]
  generalize sphereTables o.n_tir o.n_medium D (rowsP nev t.position) (rowsD nev t.direction) = X
  rfl

private theorem exitAngle_perm (σ : Equiv.Perm (Fin nt)) (nev : ℕ) (D : ℝ) (pos : ℕ → Fin nt → V3) (idx : Fin nt → ℕ) :
    exitAngle nev D (fun i j => pos i (σ j)) (fun j => idx (σ j)) = fun j => exitAngle nev D pos idx (σ j) := by
  have hs : ∀ (a : Fin nev → Fin nt → V3) (idx : Fin nt → ℕ) (j : Fin nt), selV (fun e j => a e (σ j)) (fun j => idx (σ j)) j = selV a idx (σ j) :=
    fun _ _ _ => rfl
  have hr : rowsP nev (fun i j => pos i (σ j)) = fun e j => rowsP nev pos e (σ j) := rfl
  funext j
  unfold exitAngle
  simp only [hr]
  rw [hs (fun e j => centred D (rowsP nev pos e.castSucc j)) idx, hs (fun e j => centred D (rowsP nev pos e.succ j)) idx]

private theorem geometry_perm (σ : Equiv.Perm (Fin nt)) (nev : ℕ) (o : Optics) (D : ℝ) (t : SphTrajs nt) :
    sphereGeometry nev o D (permSph σ t) = permGeo σ (sphereGeometry nev o D t) := by
  have h : entryAngle D (permSph σ t) = fun j => entryAngle D t (σ j) := rfl
  have hp : (permSph σ t).position = fun i j => t.position i (σ j) := rfl
  unfold sphereGeometry permGeo
  simp only [events_perm, h, hp, exitAngle_perm]

/-- **C98 for spheres.**  Relabelling the trajectories in a sphere, together with the random numbers that the generations of re-started
photons use, relabels the per-trajectory results and leaves reflectance and transmittance unchanged (also errors and NaN), whether or not
light that is sent back at the surface is simulated further. -/
theorem C98_sphere_order_irrelevant (D : ℝ) (m : Medium num) (draws : ℕ → Draws nt num) (run : Bool) (max_stuck : ℝ) (on o : Optics)
    (maxDepth depth nev : ℕ) (t : SphTrajs nt) (σ : Equiv.Perm (Fin nt)) :
    calcSphere D m (fun g => permDraws σ (draws g)) run max_stuck on o maxDepth depth nev (permSph σ t) =
      (calcSphere D m draws run max_stuck on o maxDepth depth nev t).map (permRT σ) := by
  induction hk : 2 * (defaultMaxCallDepth - depth) + min 1 (maxDepth - depth) using Nat.strong_induction_on generalizing o maxDepth depth nev t with
  | _ k ih =>
  unfold calcSphere
  rw [geometry_perm]
  have hl := level_perm σ o (sphereGeometry nev o D t) (decide (0 < depth)) (fun (e : Fin nev) j => t.weight e j)
  change (level o (permGeo σ (sphereGeometry nev o D t)) none (decide (0 < depth)) (fun (e : Fin nev) j => t.weight e (σ j))).bind _ = _
  rw [hl]
  cases level o (sphereGeometry nev o D t) none (decide (0 < depth)) (fun (e : Fin nev) j => t.weight e j) with
  | error e => rfl
  | ok l =>
    change (if _h : run = true ∧ depth < maxDepth ∧ (fin max_stuck : XF) < l.totalStuck then _ else _) =
      Except.map (permRT σ) (if _h : run = true ∧ depth < maxDepth ∧ (fin max_stuck : XF) < l.totalStuck then _ else _)
    by_cases hrun : run = true ∧ depth < maxDepth ∧ (fin max_stuck : XF) < l.totalStuck
    · rw [dif_pos hrun, dif_pos hrun]
      simp only [events_perm]
      have hr := restart_perm σ D (rowsP nev t.position) (rowsD nev t.direction)
        (restartIndices (sphereEvents nev o D t).1 (sphereEvents nev o D t).2.1 (sphereEvents nev o D t).2.2.2)
      change (restart D (fun e j => rowsP nev t.position e (σ j)) (fun e j => rowsD nev t.direction e (σ j))
        (fun j => restartIndices (sphereEvents nev o D t).1 (sphereEvents nev o D t).2.1 (sphereEvents nev o D t).2.2.2 (σ j))).bind _ = _
      rw [hr]
      cases restart D (rowsP nev t.position) (rowsD nev t.direction)
        (restartIndices (sphereEvents nev o D t).1 (sphereEvents nev o D t).2.1 (sphereEvents nev o D t).2.2.2) with
      | error e => rfl
      | ok start =>
        have hre := rerun_perm σ (nev + 1) m (draws (depth + 1)) start (restartWeight l.exit.reflFresnel l.exit.transFresnel l.out.stuck)
        change (rerun (nev + 1) m (permDraws σ (draws (depth + 1))) (fun j => start (σ j))
          (fun j => restartWeight l.exit.reflFresnel l.exit.transFresnel l.out.stuck (σ j))).bind _ = Except.map (permRT σ) ((rerun (nev + 1) m _ _ _).bind _)
        rw [hre]
        cases rerun (nev + 1) m (draws (depth + 1)) start (restartWeight l.exit.reflFresnel l.exit.transFresnel l.out.stuck) with
        | error e => rfl
        | ok t' =>
          have hrec := ih _ (by
            have := hrun.2.1
            simp only [defaultMaxCallDepth] at *
            omega) on defaultMaxCallDepth (depth + 1) (nev + 1) t' rfl
          simp only [Except.map, Except.bind] at hrec ⊢
          simp only [bind, Except.bind, pure, Except.pure]
          rw [hrec]
          cases calcSphere D m draws run max_stuck on on defaultMaxCallDepth (depth + 1) (nev + 1) t' with
          | error e => rfl
          | ok r =>
            simp only [permRT, permLevel, permDet]
            rw [sum_perm σ fun j => (l.det.refl j + l.det.incRefl j) / fin nt, sum_perm σ fun j => l.det.trans j / fin nt]
    · rw [dif_neg hrun, dif_neg hrun]
      exact congrArg Except.ok (distribute_perm σ l.exit l.det l.out.stuck .sphere false)

/-- Non-vacuity of C98 for spheres: the complete sphere simulation of C100 runs, with re-started photons. -/
example : ∃ rt, runSphere 3 (nt := 1) (num := 3) ⟨1, 3 / 2, .sphere, 0, 0, none, 0, 0, none, 1, some 2, 0, fun _ => 0, fun _ => 0, fun _ => 0,
      fun _ => 0, fun _ => 1 / 2, fun _ => 0, fun _ => 0⟩ (demoSampling 1)
    ⟨1, 3 / 2, 2, none, none, Real.pi / 2, 0, none, none, true, 20, 1 / 100⟩
    (fun _ => ⟨fun _ _ => 1, fun _ _ => 0, fun _ _ => 1 / 2, fun _ => 1 / 2⟩) = .ok rt := by
  obtain ⟨rt, R, T, h, -⟩ := C100_sphere_run_fractions (demo_sphereRun 1 zero_le_one) 3
  exact ⟨rt, h⟩

/-! ## C99 for spheres -/

private theorem sphere_decided {nev : ℕ} (o : Optics) (D : ℝ) (t : SphTrajs nt) (j : Fin nt) (m : ℕ) (hm : 1 ≤ m)
    (h : (sphereEvents nev o D t).1 j = m ∨ (sphereEvents nev o D t).2.1 j = m) :
    ∃ e : Fin nev, e.val + 1 = m ∧ IsFirst nev (OutsideAfter D (rowsP nev t.position) j) (e.val + 1) := by
  have hX : ∀ k, (flagged (sphereTables o.n_tir o.n_medium D (rowsP nev t.position) (rowsD nev t.direction)).neg j k ∨
      flagged (sphereTables o.n_tir o.n_medium D (rowsP nev t.position) (rowsD nev t.direction)).pos j k) → 1 ≤ k →
      k ≤ nev ∧ OutsideAfter D (rowsP nev t.position) j k := by
    intro k hk hk1
    have : flagged (potentialSphere D (fun e j => (rowsP nev t.position e j).x) (fun e j => (rowsP nev t.position e j).y)
        (fun e j => (rowsP nev t.position e j).z)) j k := by
      rcases hk with ⟨e, he, hb⟩ | ⟨e, he, hb⟩ <;>
      · simp only [sphereTables, findValidExitsSphere, Bool.and_eq_true] at hb
        exact ⟨e, he, hb.1⟩
    obtain ⟨r, hr, h2⟩ := (potential_iff D _ j k hk1).1 this
    exact ⟨by have := r.isLt; omega, r, hr, h2⟩
  by_cases hnev : 1 ≤ nev
  · obtain ⟨r1, r2, -⟩ := C10_first_exit hnev (sphereTables o.n_tir o.n_medium D (rowsP nev t.position) (rowsD nev t.direction)).neg
      (sphereTables o.n_tir o.n_medium D (rowsP nev t.position) (rowsD nev t.direction)).pos
      (sphereTables o.n_tir o.n_medium D (rowsP nev t.position) (rowsD nev t.direction)).tir j
    have hout : OutsideAfter D (rowsP nev t.position) j m ∧ m ≤ nev := by
      rcases h with h | h
      · have := ((r1 m hm).1 h).1
        exact ⟨(hX m (Or.inl this.2.2.1) hm).2, this.2.1⟩
      · have := ((r2 m hm).1 h).1
        exact ⟨(hX m (Or.inr this.2.2.1) hm).2, this.2.1⟩
    have hex : ∃ k, 1 ≤ k ∧ OutsideAfter D (rowsP nev t.position) j k := ⟨m, hm, hout.1⟩
    have hspec := Nat.find_spec hex
    have hmin : ∀ k, 1 ≤ k → k < Nat.find hex → ¬ OutsideAfter D (rowsP nev t.position) j k :=
      fun k h1 h2 h3 => Nat.find_min hex h2 ⟨h1, h3⟩
    have hle : Nat.find hex ≤ m := Nat.find_min' hex ⟨hm, hout.1⟩
    set f := Nat.find hex with hf
    obtain ⟨e, he⟩ : ∃ e : Fin nev, e.val + 1 = f := ⟨⟨f - 1, by omega⟩, by simp only; omega⟩
    have hfirst : IsFirst nev (OutsideAfter D (rowsP nev t.position) j) (e.val + 1) := by
      rw [he]
      exact ⟨hspec.1, by omega, hspec.2, hmin⟩
    refine ⟨e, ?_, hfirst⟩
    have h84 := C84_sphere_first_exit o.n_tir o.n_medium D (rowsP nev t.position) (rowsD nev t.direction) j e hfirst
    simp only at h84
    obtain ⟨c1, c2, c3, c4⟩ := h84
    change (findEventIndices _ _ _).1 j = m ∨ (findEventIndices _ _ _).2.1 j = m at h
    rcases XF.trichotomy4 (Geometry.exitKz (ofV3 (V3.sub (rowsP nev t.position e.castSucc j) ⟨0, 0, D / 2⟩))
      (ofV3 (V3.sub (rowsP nev t.position e.succ j) ⟨0, 0, D / 2⟩)) (ofV3 (rowsD nev t.direction e j)) D o.n_tir o.n_medium) with hk | hk | hk | hk
    · have := c1 hk; rcases h with h | h <;> omega
    · have := c2 hk; rcases h with h | h <;> omega
    · have := c3 hk; rcases h with h | h <;> omega
    · have := c4 hk; rcases h with h | h <;> omega
  · exfalso
    have hz : nev = 0 := by omega
    subst hz
    rcases h with h | h
    · simp [sphereEvents, findEventIndices, reflIndices, firstEvent, argmax] at h
      omega
    · simp [sphereEvents, findEventIndices, transIndices, firstEvent, argmax] at h
      omega

/-- **C99 for spheres.**  Suppose every trajectory leaves the sphere (is reported reflected or transmitted) at some event `m j`, and light
sent back at the surface is not simulated further.  Then the result is fixed by what happened up to that event: a second set of
trajectories, with as many or other numbers of events, that agrees with the first on positions up to event `m j` and on directions and
weights before it gives the same result. -/
theorem C99_sphere_after_exit_irrelevant (D : ℝ) (m' : Medium num) (draws : ℕ → Draws nt num) (max_stuck : ℝ) (on o : Optics) (maxDepth : ℕ)
    (nev nev' : ℕ) (t t' : SphTrajs nt) (m : Fin nt → ℕ) (hm : ∀ j, 1 ≤ m j ∧ m j ≤ nev')
    (hexit : ∀ j, (sphereEvents nev o D t).1 j = m j ∨ (sphereEvents nev o D t).2.1 j = m j)
    (hpos : ∀ j i, i ≤ m j → t'.position i j = t.position i j)
    (hdir : ∀ j i, i < m j → t'.direction i j = t.direction i j)
    (hw : ∀ j i, i < m j → t'.weight i j = t.weight i j) :
    calcSphere D m' draws false max_stuck on o maxDepth 0 nev' t' = calcSphere D m' draws false max_stuck on o maxDepth 0 nev t := by
  have hidx : ∀ j, m j ≤ nev ∧ (sphereEvents nev' o D t').1 j = (sphereEvents nev o D t).1 j ∧
      (sphereEvents nev' o D t').2.1 j = (sphereEvents nev o D t).2.1 j ∧ (sphereEvents nev' o D t').2.2.1 j = 0 ∧
      (sphereEvents nev o D t).2.2.1 j = 0 ∧ ((sphereEvents nev o D t).1 j = 0 ∨ (sphereEvents nev o D t).1 j = m j) ∧
      ((sphereEvents nev o D t).2.1 j = 0 ∨ (sphereEvents nev o D t).2.1 j = m j) := by
    intro j
    obtain ⟨hm1, hm2⟩ := hm j
    obtain ⟨e, he, hfirst⟩ := sphere_decided o D t j (m j) hm1 (hexit j)
    have hlt := e.isLt
    set e' : Fin nev' := ⟨e.val, by omega⟩ with he'
    have hout : ∀ k, k ≤ m j → (OutsideAfter D (rowsP nev' t'.position) j k ↔ OutsideAfter D (rowsP nev t.position) j k) := by
      intro k hk
      unfold OutsideAfter
      constructor
      · rintro ⟨r, hr, h⟩
        refine ⟨⟨k, by omega⟩, rfl, ?_⟩
        have := hpos j k hk
        simp only [rowsP, hr, this] at h ⊢
        exact h
      · rintro ⟨r, hr, h⟩
        refine ⟨⟨k, by omega⟩, rfl, ?_⟩
        have := hpos j k hk
        simp only [rowsP, hr, this] at h ⊢
        exact h
    have hfirst' : IsFirst nev' (OutsideAfter D (rowsP nev' t'.position) j) (e'.val + 1) := by
      refine ⟨hfirst.1, by simp only [he']; omega, (hout _ (by simp only [he']; omega)).2 hfirst.2.2.1, fun k h1 h2 h3 => ?_⟩
      have : k < e.val + 1 := h2
      exact hfirst.2.2.2 k h1 this ((hout k (by omega)).1 h3)
    have h1 := C84_sphere_first_exit o.n_tir o.n_medium D (rowsP nev t.position) (rowsD nev t.direction) j e hfirst
    have h2 := C84_sphere_first_exit o.n_tir o.n_medium D (rowsP nev' t'.position) (rowsD nev' t'.direction) j e' hfirst'
    have p0 : rowsP nev' t'.position e'.castSucc j = rowsP nev t.position e.castSucc j := hpos j e.val (by omega)
    have p1 : rowsP nev' t'.position e'.succ j = rowsP nev t.position e.succ j := hpos j (e.val + 1) (by omega)
    have k0 : rowsD nev' t'.direction e' j = rowsD nev t.direction e j := hdir j e.val (by omega)
    simp only [p0, p1, k0] at h1 h2
    have hx := hexit j
    change m j ≤ nev ∧ (findEventIndices _ _ _).1 j = (findEventIndices _ _ _).1 j ∧ (findEventIndices _ _ _).2.1 j = (findEventIndices _ _ _).2.1 j ∧
      (findEventIndices _ _ _).2.2.1 j = 0 ∧ (findEventIndices _ _ _).2.2.1 j = 0 ∧ ((findEventIndices _ _ _).1 j = 0 ∨ (findEventIndices _ _ _).1 j = m j) ∧
      ((findEventIndices _ _ _).2.1 j = 0 ∨ (findEventIndices _ _ _).2.1 j = m j)
    change (findEventIndices _ _ _).1 j = m j ∨ (findEventIndices _ _ _).2.1 j = m j at hx
    have hv : e'.val = e.val := rfl
    rw [hv] at h2
    refine ⟨by omega, ?_⟩
    rcases XF.trichotomy4 (Geometry.exitKz (ofV3 (V3.sub (rowsP nev t.position e.castSucc j) ⟨0, 0, D / 2⟩))
      (ofV3 (V3.sub (rowsP nev t.position e.succ j) ⟨0, 0, D / 2⟩)) (ofV3 (rowsD nev t.direction e j)) D o.n_tir o.n_medium) with hk | hk | hk | hk
    · have a := h1.1 hk; have b := h2.1 hk
      refine ⟨?_, ?_, ?_, ?_, ?_, ?_⟩ <;> omega
    · have a := h1.2.1 hk; have b := h2.2.1 hk
      refine ⟨?_, ?_, ?_, ?_, ?_, ?_⟩ <;> omega
    · have a := h1.2.2.1 hk
      rcases hx with hx | hx <;> omega
    · have a := h1.2.2.2 hk
      rcases hx with hx | hx <;> omega
  have hsel : ∀ {α : Type} [Zero α] (A : Fin nev → Fin nt → α) (A' : Fin nev' → Fin nt → α) (f f' : Fin nt → ℕ),
      (∀ j, f' j = f j) → (∀ j, f j = 0 ∨ f j = m j) →
      (∀ j e (h : e < nev) (h' : e < nev'), e < m j → A' ⟨e, h'⟩ j = A ⟨e, h⟩ j) → ∀ j, sel A' f' j = sel A f j := by
    intro α _ A A' f f' h1 h2 h3 j
    have hmj := hm j
    have hle := (hidx j).1
    rcases h2 j with h | h
    · rw [sel_zero A f j h, sel_zero A' f' j (by rw [h1, h])]
    · rw [sel_pos A f j (by omega) (by omega), sel_pos A' f' j (by rw [h1]; omega) (by rw [h1]; omega)]
      simp only [h1]
      exact h3 j _ _ _ (by omega)
  have hselV : ∀ (A : Fin nev → Fin nt → V3) (A' : Fin nev' → Fin nt → V3) (f f' : Fin nt → ℕ),
      (∀ j, f' j = f j) → (∀ j, f j = 0 ∨ f j = m j) →
      (∀ j e (h : e < nev) (h' : e < nev'), e < m j → A' ⟨e, h'⟩ j = A ⟨e, h⟩ j) → ∀ j, selV A' f' j = selV A f j := by
    intro A A' f f' h1 h2 h3 j
    unfold selV
    rw [hsel (fun e j => (A e j).x) (fun e j => (A' e j).x) f f' h1 h2 (fun j e h h' hl => congrArg V3.x (h3 j e h h' hl)),
      hsel (fun e j => (A e j).y) (fun e j => (A' e j).y) f f' h1 h2 (fun j e h h' hl => congrArg V3.y (h3 j e h h' hl)),
      hsel (fun e j => (A e j).z) (fun e j => (A' e j).z) f f' h1 h2 (fun j e h h' hl => congrArg V3.z (h3 j e h h' hl))]
  have hang : ∀ f f' : Fin nt → ℕ, (∀ j, f' j = f j) → (∀ j, f j = 0 ∨ f j = m j) →
      exitAngle nev' D t'.position f' = exitAngle nev D t.position f := by
    intro f f' h1 h2
    funext j
    unfold exitAngle
    rw [hselV (fun e j => centred D (rowsP nev t.position e.castSucc j)) (fun e j => centred D (rowsP nev' t'.position e.castSucc j)) f f' h1 h2
        (fun j e h h' hl => congrArg (centred D) (hpos j e hl.le)),
      hselV (fun e j => centred D (rowsP nev t.position e.succ j)) (fun e j => centred D (rowsP nev' t'.position e.succ j)) f f' h1 h2
        (fun j e h h' hl => congrArg (centred D) (hpos j (e + 1) hl))]
  have hent : entryAngle D t' = entryAngle D t := by
    funext j
    unfold entryAngle
    rw [hpos j 0 (Nat.zero_le _), hdir j 0 (hm j).1]
  have hrun : ∀ (n : ℕ) (s : SphTrajs nt), calcSphere D m' draws false max_stuck on o maxDepth 0 n s =
      calcReflTrans o .sphere (sphereGeometry n o D s) none false (fun (e : Fin n) j => s.weight e j) := by
    intro n s
    unfold calcSphere calcReflTrans
    simp
  rw [hrun, hrun]
  have hww : ∀ j e (h : e < nev) (h' : e < nev'), e < m j → (fun (e : Fin nev') j => t'.weight e j) ⟨e, h'⟩ j = (fun (e : Fin nev) j => t.weight e j) ⟨e, h⟩ j :=
    fun j e _ _ he => hw j e he
  apply calc_congr
  · exact hent
  · exact hent
  · exact hang _ _ (fun j => (hidx j).2.1) (fun j => (hidx j).2.2.2.2.2.1)
  · exact hang _ _ (fun j => (hidx j).2.2.1) (fun j => (hidx j).2.2.2.2.2.2)
  · exact funext (hsel _ _ _ _ (fun j => (hidx j).2.1) (fun j => (hidx j).2.2.2.2.2.1) hww)
  · exact funext (hsel _ _ _ _ (fun j => (hidx j).2.2.1) (fun j => (hidx j).2.2.2.2.2.2) hww)
  · exact funext (hsel _ _ _ _ (fun j => (hidx j).2.2.2.1.trans (hidx j).2.2.2.2.1.symm) (fun j => Or.inl (hidx j).2.2.2.2.1) hww)

/-- Non-vacuity of C99 for spheres: a photon through a sphere of index 3/2 along its axis is transmitted at its first event. -/
example : (sphereEvents 1 { n_medium := 1, n_sample := 3 / 2, n_tir := 3 / 2, n_front := none, n_back := none, detection_angle := Real.pi / 2 }
    (2 * 1) (⟨fun r (_ : Fin 1) => ⟨0, 0, 3 * r⟩, fun _ _ => ⟨0, 0, 1⟩, fun _ _ => fin (1 / 2)⟩ : SphTrajs 1)).2.1 0 = 1 := by
  have hl : LeavesBall 1 ⟨0, 0, 1⟩ (fun r : Fin 2 => (⟨0, 0, 3 * (r.val : ℝ)⟩ : V3)) 0 :=
    ⟨by norm_num [V3.sub, V3.normSq, V3.dot], fun e' he' => absurd he' (Fin.not_lt_zero e')⟩
  have h := ball_numbers (nt := 1) (nev := 0) (ns := 3 / 2) (nm := 1) (R := 1) (pos := fun r _ => ⟨0, 0, 3 * (r.val : ℝ)⟩) (dir := fun _ _ => ⟨0, 0, 1⟩)
    (kz := fun _ _ => some 1) (fate := fun _ => .transmitted 0) (fun j e _ => by
      have he : e = (0 : Fin 1) := Subsingleton.elim (α := Fin 1) _ _
      subst he
      have hx := demo_ball.leave 0 0 hl
      have := (C24_sphere_straight_partial hx (n1 := 3 / 2) (n2 := 1) (by norm_num) one_pos (Or.inr (by
        ext <;> norm_num [V3.cross, V3.smul, V3.zero]))).1
      simpa [exitKzOf] using this) (fun j => ⟨hl, 1, rfl, one_pos⟩)
  exact h.2.1 0

end
end Verif.Props
