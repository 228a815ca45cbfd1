import Verif.Props.SphereEstimator
import Verif.Props.Metamorphic2

/-!
# C144: a simulation in batches
-/

namespace Verif.Props
noncomputable section
open Classical Verif.Spec Verif.Root Verif.Fresnel Verif.Exits Verif.Weights _root_.Verif.XF
open Verif.Simulation Verif.Traj Verif.SphereRun Verif.Restart Verif.Init
open Verif (XF PyErr)
open Verif.Geometry (ofV3 XV)

variable {nt num m : ℕ}

/-- The trajectories `σ 0, σ 1, …` of a bundle in a sphere, as a bundle of their own. -/
def pickSph (σ : Fin m → Fin nt) (t : SphTrajs nt) : SphTrajs m :=
  ⟨fun i j => t.position i (σ j), fun i j => t.direction i (σ j), fun i j => t.weight i (σ j)⟩

/-- The random numbers of the trajectories `σ 0, σ 1, …`. -/
def pickDraws (σ : Fin m → Fin nt) (g : Draws nt num) : Draws m num :=
  ⟨fun i j => g.draw_theta i (σ j), fun i j => g.rand_phi i (σ j), fun i j => g.rand_step i (σ j), g.rand_mie⟩

/-- The arguments of `initialize` for a run of the trajectories `σ 0, σ 1, …` alone: everything is the same but the number of trajectories,
and each trajectory has its own random numbers. -/
def pickArgs (σ : Fin m → Fin nt) (a : Args nt) : Args m :=
  { a with ux := fun j => a.ux (σ j), uy := fun j => a.uy (σ j), ut := fun j => a.ut (σ j), up := fun j => a.up (σ j)
           ur := fun j => a.ur (σ j), uth := fun j => a.uth (σ j), theta_a := fun j => a.theta_a (σ j) }

/-- The sampling for a run of the trajectories `σ 0, σ 1, …` alone. -/
def pickSampling (σ : Fin m → Fin nt) (S : Sampling nt num) : Sampling m num :=
  { S with draw_theta := fun i j => S.draw_theta i (σ j), rand_phi := fun i j => S.rand_phi i (σ j)
           rand_step := fun i j => S.rand_step i (σ j) }

/-- The trajectories `σ 0, σ 1, …` of a simulation. -/
def pickTrajs (σ : Fin m → Fin nt) (t : Trajs nt) : Trajs m :=
  ⟨fun i j => t.position i (σ j), fun i j => t.direction i (σ j), fun i j => t.weight i (σ j),
    t.kz0_rot.map fun f j => f (σ j), t.kz0_refl.map fun f j => f (σ j)⟩

def pickGeo (σ : Fin m → Fin nt) (g : Weights.Geometry nt) : Weights.Geometry m :=
  ⟨fun j => g.ri (σ j), fun j => g.ti (σ j), fun j => g.si (σ j), fun j => g.thInc (σ j), fun j => g.thIncDet (σ j),
    fun j => g.thRefl (σ j), fun j => g.thTrans (σ j)⟩

def pickRIn (σ : Fin m → Fin nt) (c : RIn nt) : RIn m :=
  { i := fun j => c.i (σ j), r := fun j => c.r (σ j), t := fun j => c.t (σ j), s := fun j => c.s (σ j), pr := fun j => c.pr (σ j),
    pt := fun j => c.pt (σ j), θr := fun j => c.θr (σ j), θt := fun j => c.θt (σ j) }

theorem scatter_pick (σ : Fin m → Fin nt) (n : ℕ) (kn : ℕ → Fin nt → V3) (st ct sp cp : ℕ → Fin nt → ℝ) :
    scatter n (fun i j => kn i (σ j)) (fun i j => st i (σ j)) (fun i j => ct i (σ j)) (fun i j => sp i (σ j)) (fun i j => cp i (σ j)) =
      fun i j => scatter n kn st ct sp cp i (σ j) := by
  unfold scatter
  generalize List.range' 1 (n - 1) = L
  induction L generalizing kn with
  | nil => rfl
  | cons a L ih =>
    rw [List.foldl_cons, List.foldl_cons, ← ih]
    congr 1
    funext i j
    by_cases h : i = a
    · subst h; simp [scatterBody]
    · simp [scatterBody, h]

theorem move_pick (σ : Fin m → Fin nt) (p : ℕ → Fin nt → V3) (st : ℕ → Fin nt → ℝ) (k : ℕ → Fin nt → V3) :
    move (fun i j => p i (σ j)) (fun i j => st i (σ j)) (fun i j => k i (σ j)) = fun i j => move p st k i (σ j) := by
  funext i j
  unfold move
  congr 1
  funext n
  cases n <;> rfl

theorem angles_pick (σ : Fin m → Fin nt) (n : ℕ) (p : Fin num → ℝ) (ma : ℝ) (dt : ℕ → Fin nt → Fin num) (rp : ℕ → Fin nt → ℝ) :
    sampleAngles1 n p ma (fun i j => dt i (σ j)) (fun i j => rp i (σ j)) = (sampleAngles1 n p ma dt rp).map fun a =>
        ⟨fun i j => a.sintheta i (σ j), fun i j => a.costheta i (σ j), fun i j => a.sinphi i (σ j), fun i j => a.cosphi i (σ j),
          fun i j => a.theta i (σ j), fun i j => a.phi i (σ j), a.rows⟩ := by
  unfold sampleAngles1
  dsimp only
  split <;> rfl

theorem step_pick (σ : Fin m → Fin nt) (mu : ℝ) (mie : Option ℝ) (fr : ℝ) (rs : ℕ → Fin nt → ℝ) (rm : ℕ → ℝ) (h : mie = none ∨ fr = 0) :
    sampleStep m mu mie fr (fun i j => rs i (σ j)) rm = (sampleStep nt mu mie fr rs rm).map fun s i j => s i (σ j) := by
  unfold sampleStep
  split
  · rfl
  · rcases h with rfl | rfl
    · rfl
    · cases mie with
      | none => rfl
      | some mu =>
        have h0 : ∀ k : ℕ, (pyRound ((k : ℝ) * 0)).toNat = 0 := fun k => by
          rw [mul_zero]
          norm_num [pyRound]
        simp only [h0, Nat.not_lt_zero, and_false, if_false]
        rfl

theorem rerun_pick (σ : Fin m → Fin nt) (n : ℕ) (M : Medium num) (g : Draws nt num) (start : Fin nt → XV × XV)
    (W : Fin nt → XF) :
    rerun n M (pickDraws σ g) (fun j => start (σ j)) (fun j => W (σ j)) = (rerun n M g start W).map (pickSph σ) := by
  have hstep := step_pick σ M.mu_scat M.mu_scat_mie 0 g.rand_step g.rand_mie (Or.inr rfl)
  have hang := angles_pick σ n M.p (1 / 100) g.draw_theta g.rand_phi
  unfold rerun
  simp only [pickDraws]
  rw [hstep, hang]
  cases sampleAngles1 n M.p (1 / 100) g.draw_theta g.rand_phi with
  | error e => rfl
  | ok a =>
    cases sampleStep nt M.mu_scat M.mu_scat_mie 0 g.rand_step g.rand_mie with
    | error e => rfl
    | ok s =>
      simp only [Except.map, bind, Except.bind, pure, Except.pure]
      rw [scatter_pick σ n (fun i j => if i = 0 then Simulation.valV (start j).2 else V3.zero) a.sintheta a.costheta a.sinphi a.cosphi,
        move_pick σ (fun i j => if i = 0 then Simulation.valV (start j).1 else V3.zero) (fun i j => Simulation.val (s i j))]
      rfl

theorem restart_pick {nev : ℕ} (σ : Fin m → Fin nt) (D : ℝ) (pos : Fin (nev + 1) → Fin nt → V3) (dir : Fin nev → Fin nt → V3)
    (idx : Fin nt → ℕ) {F : Fin nt → XV × XV} (h : restart D pos dir idx = .ok F) :
    restart D (fun e j => pos e (σ j)) (fun e j => dir e (σ j)) (fun j => idx (σ j)) = .ok fun j => F (σ j) := by
  unfold restart at h ⊢
  split at h
  · exact (nomatch h)
  · next hn =>
    push Not at hn
    rw [if_neg (by push Not; exact fun j => hn (σ j))]
    injection h with h
    rw [← h]
    rfl

theorem kz_pick {nev : ℕ} (σ : Fin m → Fin nt) (ns nm D : ℝ) (pos : Fin (nev + 1) → Fin nt → V3) (dir : Fin nev → Fin nt → V3) :
    kzCorrect ns nm D (fun e j => pos e (σ j)) (fun e j => dir e (σ j)) = fun j => kzCorrect ns nm D pos dir (σ j) := by
  have hp : potentialIndices D (fun e j => pos e (σ j)) = fun j => potentialIndices D pos (σ j) := rfl
  have hs : ∀ (a : Fin nev → Fin nt → V3) (idx : Fin nt → ℕ) (j : Fin m), selV (fun e j => a e (σ j)) (fun j => idx (σ j)) j = selV a idx (σ j) :=
    fun _ _ _ => rfl
  funext j
  unfold kzCorrect
  simp only [hp]
  rw [hs (fun e j => centred D (pos e.castSucc j)) (potentialIndices D pos), hs (fun e j => centred D (pos e.succ j)) (potentialIndices D pos),
    hs dir (potentialIndices D pos)]

theorem tables_pick {nev : ℕ} (σ : Fin m → Fin nt) (ns nm D : ℝ) (pos : Fin (nev + 1) → Fin nt → V3) (dir : Fin nev → Fin nt → V3) :
    sphereTables ns nm D (fun e j => pos e (σ j)) (fun e j => dir e (σ j)) =
      ⟨fun e j => (sphereTables ns nm D pos dir).pos e (σ j), fun e j => (sphereTables ns nm D pos dir).neg e (σ j),
        fun e j => (sphereTables ns nm D pos dir).tir e (σ j)⟩ := by
  unfold sphereTables
  rw [kz_pick]
  rfl

theorem events_pick (σ : Fin m → Fin nt) (nev : ℕ) (o : Optics) (D : ℝ) (t : SphTrajs nt) :
    sphereEvents nev o D (pickSph σ t) = (fun j => (sphereEvents nev o D t).1 (σ j), fun j => (sphereEvents nev o D t).2.1 (σ j),
      fun j => (sphereEvents nev o D t).2.2.1 (σ j), fun j => (sphereEvents nev o D t).2.2.2 (σ j)) := by
  have h := tables_pick σ o.n_tir o.n_medium D (rowsP nev t.position) (rowsD nev t.direction)
  have e : sphereTables o.n_tir o.n_medium D (rowsP nev (pickSph σ t).position) (rowsD nev (pickSph σ t).direction) =
    sphereTables o.n_tir o.n_medium D (fun e j => rowsP nev t.position e (σ j)) (fun e j => rowsD nev t.direction e (σ j)) := rfl
  unfold sphereEvents
  simp only [e, h]
  generalize sphereTables o.n_tir o.n_medium D (rowsP nev t.position) (rowsD nev t.direction) = X
  rfl

theorem exitAngle_pick (σ : Fin m → Fin nt) (nev : ℕ) (D : ℝ) (pos : ℕ → Fin nt → V3) (idx : Fin nt → ℕ) :
    exitAngle nev D (fun i j => pos i (σ j)) (fun j => idx (σ j)) = fun j => exitAngle nev D pos idx (σ j) := by
  have hs : ∀ (a : Fin nev → Fin nt → V3) (idx : Fin nt → ℕ) (j : Fin m), selV (fun e j => a e (σ j)) (fun j => idx (σ j)) j = selV a idx (σ j) :=
    fun _ _ _ => rfl
  have hr : rowsP nev (fun i j => pos i (σ j)) = fun e j => rowsP nev pos e (σ j) := rfl
  funext j
  unfold exitAngle
  simp only [hr]
  rw [hs (fun e j => centred D (rowsP nev pos e.castSucc j)) idx, hs (fun e j => centred D (rowsP nev pos e.succ j)) idx]

theorem geometry_pick (σ : Fin m → Fin nt) (nev : ℕ) (o : Optics) (D : ℝ) (t : SphTrajs nt) :
    sphereGeometry nev o D (pickSph σ t) = pickGeo σ (sphereGeometry nev o D t) := by
  have h : entryAngle D (pickSph σ t) = fun j => entryAngle D t (σ j) := rfl
  have hp : (pickSph σ t).position = fun i j => t.position i (σ j) := rfl
  unfold sphereGeometry pickGeo
  simp only [events_pick, h, hp, exitAngle_pick]

/-- the weights of a call on some of the trajectories are those of the call on all of them -/
theorem sphere_level_pick {D mu : ℝ} (hD : 0 < D) {o : Optics} (ho : OpticsOK o) (hns : 0 < o.n_sample) (hle : o.n_sample ≤ o.n_tir)
    (hdet : o.detection_angle = Real.pi / 2) (nev : ℕ) {t : SphTrajs nt} {ω : Fin nt → ℝ}
    (hω : ∀ j, 0 ≤ ω j ∧ ω j ≤ 1) (ht : GenOK D mu ω t) (ft : Bool)
    (hinc : ft = false → ∀ j, ∃ θ : ℝ, entryAngle D t j = fin θ ∧ 0 ≤ θ ∧ θ ≤ Real.pi / 2) :
    ∃ (c : RIn nt) (ir : Fin nt → ℝ), c.Good ∧ (∀ j, c.r j + c.t j + c.s j ≤ c.i j * ω j) ∧ (∀ j, 0 ≤ ir j ∧ ir j ≤ 1 - c.i j) ∧
      ∀ {m : ℕ} (σ : Fin m → Fin nt), ∃ l : Level m,
        level o (sphereGeometry nev o D (pickSph σ t)) none ft (fun (e : Fin nev) j => (pickSph σ t).weight e j) = .ok l ∧
        LevelFin l (pickRIn σ c) o.n_sample o.n_medium o.detection_angle ft (fun j => ir (σ j)) ∧
        (∀ j, (pickRIn σ c).dr o.n_sample o.n_medium o.detection_angle j = c.Pr (σ j)) ∧
        (∀ j, (pickRIn σ c).dt o.n_sample o.n_medium o.detection_angle j = c.Pt (σ j)) ∧
        (pickRIn σ c).rdf o.n_sample o.n_medium o.detection_angle = 1 ∧ (pickRIn σ c).tdf o.n_sample o.n_medium o.detection_angle = 1 := by
  obtain ⟨att, hw, hatt, hatt1⟩ := ht.weight
  set g := sphereGeometry nev o D t with hg
  have hcase := fun j => sphere_cases o.n_tir o.n_medium D (rowsP nev t.position) (rowsD nev t.direction) j
  have hri : ∀ j, g.ri j = 0 ∨ ∃ e : Fin nev, IsFirst nev (OutsideAfter D (rowsP nev t.position) j) (e.val + 1) ∧ g.ri j = e.val + 1 := by
    intro j
    rcases hcase j with ⟨h, -⟩ | ⟨e, he, ⟨h, -⟩ | ⟨h, -⟩ | ⟨h, -⟩⟩
    · exact Or.inl h
    · exact Or.inr ⟨e, he, h⟩
    · exact Or.inl h
    · exact Or.inl h
  have hti : ∀ j, g.ti j = 0 ∨ ∃ e : Fin nev, IsFirst nev (OutsideAfter D (rowsP nev t.position) j) (e.val + 1) ∧ g.ti j = e.val + 1 := by
    intro j
    rcases hcase j with ⟨-, h, -⟩ | ⟨e, he, ⟨-, h, -⟩ | ⟨-, h, -⟩ | ⟨-, h, -⟩⟩
    · exact Or.inl h
    · exact Or.inl h
    · exact Or.inr ⟨e, he, h⟩
    · exact Or.inl h
  have hex : ∀ j, (g.ti j = 0 ∧ g.si j = 0) ∨ (g.ri j = 0 ∧ g.si j = 0) ∨ (g.ri j = 0 ∧ g.ti j = 0) := by
    intro j
    rcases hcase j with ⟨h1, h2, h3, -⟩ | ⟨e, he, ⟨h1, h2, h3, -⟩ | ⟨h1, h2, h3, -⟩ | ⟨h1, h2, h3, -⟩⟩
    · exact Or.inr (Or.inr ⟨h1, h2⟩)
    · exact Or.inl ⟨h2, h3⟩
    · exact Or.inr (Or.inl ⟨h1, h3⟩)
    · exact Or.inr (Or.inr ⟨h1, h2⟩)
  have hθr : ∀ j, ∃ θ : ℝ, g.thRefl j = fin θ ∧ 0 ≤ θ ∧ θ ≤ Real.pi / 2 := fun j => exitAngle_mem hD (ht.inside j) (hri j)
  have hθt : ∀ j, ∃ θ : ℝ, g.thTrans j = fin θ ∧ 0 ≤ θ ∧ θ ≤ Real.pi / 2 := fun j => exitAngle_mem hD (ht.inside j) (hti j)
  choose θr hr1 hr2 using hθr
  choose θt ht1 ht2 using hθt
  have hi : ∃ i : Fin nt → ℝ, (∀ {m : ℕ} (σ : Fin m → Fin nt), incPassFrac ft (fun j => g.thInc (σ j)) o.n_medium o.n_front o.n_tir =
      .ok (fun j => fin (i (σ j)))) ∧ (∀ j, 0 ≤ i j ∧ i j ≤ 1) := by
    cases ft with
    | true => exact ⟨fun _ => 1, fun σ => by simp [incPassFrac], fun _ => by norm_num⟩
    | false =>
      choose θ h1 h2 using hinc rfl
      have e : g.thInc = fun j => fin (θ j) := funext h1
      exact ⟨fun j => passFrac o.n_medium o.n_front o.n_tir (θ j), fun σ => by
        simp only [incPassFrac, Bool.false_eq_true, if_false, e]
        exact fresnelPassFrac_fin _ _ ho.medium ho.front fun j => h2 (σ j),
        fun j => passFrac_mem _ ho.medium ho.front (h2 j).1 (h2 j).2⟩
  obtain ⟨i, hi, hi01⟩ := hi
  obtain ⟨ir, hir, hir0, hir1⟩ := incReflIs_exists o g none i (fun j => (hi01 j).2)
  have hbw : ∀ (e : Fin nev) j, 0 ≤ ω j * att e j ∧ ω j * att e j ≤ 1 := fun e j =>
    ⟨mul_nonneg (hω j).1 (hatt e j).1, by nlinarith [hω j, hatt e j]⟩
  have hz : ∀ (idx : Fin nt → ℕ) j, idx j = 0 → Root.sel (fun (e : Fin nev) j => ω j * att e j) idx j = 0 :=
    fun idx j h => Root.sel_zero _ idx j h
  refine ⟨shadow o g (fun (e : Fin nev) j => ω j * att e j) i θr θt, ir, shadow_good ho.tir ho.front ho.back hr2 ht2 hi01 hbw hex, ?_,
    fun j => ⟨hir0 j, hir1 j⟩, ?_⟩
  · intro j
    show i j * Root.sel _ g.ri j + i j * Root.sel _ g.ti j + i j * Root.sel _ g.si j ≤ i j * ω j
    have hsel : ∀ (idx : Fin nt → ℕ), Root.sel (fun (e : Fin nev) j => ω j * att e j) idx j ≤ ω j := by
      intro idx
      unfold Root.sel
      split
      · next h => nlinarith [hω j, hatt (idx j - 1) j]
      · exact (hω j).1
    have hij := hi01 j
    rcases hex j with ⟨h1, h2⟩ | ⟨h1, h2⟩ | ⟨h1, h2⟩ <;> rw [hz _ j h1, hz _ j h2]
    · nlinarith [hsel g.ri]
    · nlinarith [hsel g.ti]
    · nlinarith [hsel g.si]
  · intro m σ
    have hw' : (fun (e : Fin nev) j => (pickSph σ t).weight e j) = fun (e : Fin nev) j => (fin (ω (σ j) * att e (σ j)) : XF) := by
      funext e j; exact hw e (σ j)
    rw [hw', geometry_pick]
    obtain ⟨l, hl, hL⟩ := level_fin o (pickGeo σ g) none ft (fun (e : Fin nev) j => ω (σ j) * att e (σ j)) (fun j => i (σ j)) (fun j => θr (σ j))
      (fun j => θt (σ j)) (fun j => ir (σ j)) ho.tir ho.medium ho.front ho.back (hi σ) (funext fun j => hr1 (σ j)) (funext fun j => ht1 (σ j))
      (fun j => hr2 (σ j)) (fun j => ht2 (σ j)) (fun j => hir (σ j))
    have e : shadow o (pickGeo σ g) (fun (e : Fin nev) j => ω (σ j) * att e (σ j)) (fun j => i (σ j)) (fun j => θr (σ j)) (fun j => θt (σ j)) =
        pickRIn σ (shadow o g (fun (e : Fin nev) j => ω j * att e j) i θr θt) := rfl
    rw [e] at hL
    have hdr : ∀ j, (pickRIn σ (shadow o g (fun (e : Fin nev) j => ω j * att e j) i θr θt)).dr o.n_sample o.n_medium o.detection_angle j =
        (shadow o g (fun (e : Fin nev) j => ω j * att e j) i θr θt).Pr (σ j) := fun j => by
      rw [hdet]; exact dcR_full hns hle ho.medium ho.front (hr2 (σ j)).1 (hr2 (σ j)).2
    have hdt : ∀ j, (pickRIn σ (shadow o g (fun (e : Fin nev) j => ω j * att e j) i θr θt)).dt o.n_sample o.n_medium o.detection_angle j =
        (shadow o g (fun (e : Fin nev) j => ω j * att e j) i θr θt).Pt (σ j) := fun j => by
      rw [hdet]; exact dcR_full hns hle ho.medium ho.back (ht2 (σ j)).1 (ht2 (σ j)).2
    refine ⟨l, hl, hL, hdr, hdt, ?_, ?_⟩
    · unfold RIn.rdf
      rw [Finset.sum_congr rfl fun j _ => hdr j]
      exact div_self (RIn.maxEPS_pos _).ne'
    · unfold RIn.tdf
      rw [Finset.sum_congr rfl fun j _ => hdt j]
      exact div_self (RIn.maxEPS_pos _).ne'

/-- photon by photon, through all generations -/
theorem batch_core {a : Args nt} {S : Sampling nt num} {d : SphereArgs} {draws : ℕ → Draws nt num}
    (H : SphereDomain a S d draws) (hon : OpticsOK d.nested) (hrun : d.run_fresnel_traj = false ∨ d.max_stuck < 0) (k : ℕ) :
    ∀ (o : Optics), OpticsOK o → 0 < o.n_sample → o.n_sample ≤ o.n_tir → o.detection_angle = Real.pi / 2 →
      ∀ (M depth nev : ℕ) (t : SphTrajs nt) (ω : Fin nt → ℝ),
      2 * (20 - depth) + min 1 (M - depth) = k → (∀ j, 0 ≤ ω j ∧ ω j ≤ 1) → GenOK d.thickness S.mu_abs ω t →
      (depth = 0 → ∀ j, ∃ θ : ℝ, entryAngle d.thickness t j = fin θ ∧ 0 ≤ θ ∧ θ ≤ Real.pi / 2) →
      ∃ fR fT : Fin nt → ℝ, (∀ j, 0 ≤ fR j ∧ 0 ≤ fT j) ∧ ∀ {m : ℕ} (_ : 0 < m) (σ : Fin m → Fin nt), ∃ rt,
        calcSphere d.thickness ⟨S.p, S.mu_scat, S.mu_scat_mie, S.mu_abs⟩ (fun g => pickDraws σ (draws g)) d.run_fresnel_traj d.max_stuck
          d.nested o M depth nev (pickSph σ t) = .ok rt ∧
        (∀ j, rt.reflPer j = fin (fR (σ j) / m)) ∧ (∀ j, rt.transPer j = fin (fT (σ j) / m)) ∧
        rt.R = fin (∑ j, fR (σ j) / m) ∧ rt.T = fin (∑ j, fT (σ j) / m) := by
  have hD := H.diameter_pos
  induction k using Nat.strong_induction_on with
  | _ k ih =>
    intro o ho hns hle hdet M depth nev t ω hk hω ht hinc
    obtain ⟨c, ir, hg, hsum, hir, hpick⟩ := sphere_level_pick hD ho hns hle hdet nev hω ht (decide (0 < depth))
      (fun h => hinc (by simpa using h))
    have hi01 : ∀ j, 0 ≤ c.i j ∧ c.i j ≤ 1 := fun j => ⟨hg.i0 j, hg.i1 j⟩
    by_cases hc : d.run_fresnel_traj = true ∧ depth < M
    · -- one more generation
      have hms : d.max_stuck < 0 := by
        rcases hrun with h | h
        · rw [h] at hc; exact absurd hc.1 (by decide)
        · exact h
      have hcase := fun j => sphere_cases o.n_tir o.n_medium d.thickness (rowsP nev t.position) (rowsD nev t.direction) j
      obtain ⟨F, hF, hFin⟩ := restart_inside (dir := rowsD nev t.direction) hD (pos := rowsP nev t.position) ht.inside
        (idx := Restart.restartIndices (sphereEvents nev o d.thickness t).1 (sphereEvents nev o d.thickness t).2.1
          (sphereEvents nev o d.thickness t).2.2.2) (by
          intro j
          show Restart.restartIndices _ _ _ j = 0 ∨ ∃ e : Fin nev, _ ∧ Restart.restartIndices _ _ _ j = _
          unfold Restart.restartIndices
          rcases hcase j with ⟨h1, h2, -, h3⟩ | ⟨e, he, ⟨h1, h2, -, h3⟩ | ⟨h1, h2, -, h3⟩ | ⟨h1, h2, -, h3⟩⟩
          · exact Or.inl (by rw [sphereEvents]; omega)
          · exact Or.inr ⟨e, he, by rw [sphereEvents]; omega⟩
          · exact Or.inr ⟨e, he, by rw [sphereEvents]; omega⟩
          · exact Or.inr ⟨e, he, by rw [sphereEvents]; omega⟩)
      obtain ⟨t', ht', hgen⟩ := rerun_ok H (nev + 1) (depth + 1) (ω := fun j => c.fr j + c.ft j + c.s j) hFin
      have hω' : ∀ j, 0 ≤ c.fr j + c.ft j + c.s j ∧ c.fr j + c.ft j + c.s j ≤ 1 := by
        intro j
        have := hg.fr0 j; have := hg.ft0 j; have := hg.s0 j
        have := hg.Pr0 j; have := hg.Pt0 j
        have := hsum j
        have : c.i j * ω j ≤ 1 := by nlinarith [hi01 j, hω j]
        have e1 : c.fr j = c.r j - c.Pr j := rfl
        have e2 : c.ft j = c.t j - c.Pt j := rfl
        constructor <;> linarith
      have hlt : 2 * (20 - (depth + 1)) + min 1 (defaultMaxCallDepth - (depth + 1)) < k := by
        have := hc.2
        unfold defaultMaxCallDepth
        omega
      have hs : 0 < d.n_sample := lt_of_lt_of_le H.medium_pos H.not_denser
      obtain ⟨fR', fT', h0', hrec⟩ := ih _ hlt d.nested hon hs le_rfl rfl defaultMaxCallDepth
        (depth + 1) (nev + 1) t' _ rfl hω' hgen (fun h => absurd h (by omega))
      refine ⟨fun j => fR' j + (c.Pr j + ir j), fun j => fT' j + c.Pt j, fun j => ⟨?_, ?_⟩, ?_⟩
      · have := (h0' j).1; have := hg.Pr0 j; have := (hir j).1; linarith
      · have := (h0' j).2; have := hg.Pt0 j; linarith
      intro m hm σ
      have hm0 : (m : ℝ) ≠ 0 := by exact_mod_cast hm.ne'
      obtain ⟨l, hl, hL, hdr, hdt, -, -⟩ := hpick σ
      have hstk : (fin d.max_stuck : XF) < l.totalStuck := by
        rw [hL.total, fin_div _ hm0, fin_lt]
        refine lt_of_lt_of_le hms (div_nonneg (Finset.sum_nonneg fun j _ => ?_) (Nat.cast_nonneg m))
        have : 0 ≤ c.fr (σ j) + c.ft (σ j) + c.s (σ j) := (hω' (σ j)).1
        exact this
      have hW : Restart.restartWeight l.exit.reflFresnel l.exit.transFresnel l.out.stuck =
          fun j => (fin (c.fr (σ j) + c.ft (σ j) + c.s (σ j)) : XF) := by
        funext j
        rw [Restart.restartWeight, hL.reflFresnel, hL.transFresnel, hL.stuck, fin_add, fin_add]
        rfl
      have hF' : restart d.thickness (rowsP nev (pickSph σ t).position) (rowsD nev (pickSph σ t).direction)
          (restartIndices (sphereEvents nev o d.thickness (pickSph σ t)).1 (sphereEvents nev o d.thickness (pickSph σ t)).2.1
            (sphereEvents nev o d.thickness (pickSph σ t)).2.2.2) = .ok fun j => F (σ j) := by
        rw [events_pick]
        exact restart_pick σ _ _ _ _ hF
      have ht'' : rerun (nev + 1) ⟨S.p, S.mu_scat, S.mu_scat_mie, S.mu_abs⟩ (pickDraws σ (draws (depth + 1))) (fun j => F (σ j))
          (fun j => fin (c.fr (σ j) + c.ft (σ j) + c.s (σ j))) = .ok (pickSph σ t') := by
        have := rerun_pick σ (nev + 1) ⟨S.p, S.mu_scat, S.mu_scat_mie, S.mu_abs⟩ (draws (depth + 1)) F (fun j => fin (c.fr j + c.ft j + c.s j))
        rw [ht'] at this
        exact this
      obtain ⟨r', hr', hRp, hTp, hR', hT'⟩ := hrec hm σ
      refine ⟨{ R := r'.R + ∑ j, (l.det.refl j + l.det.incRefl j) / fin m
                T := r'.T + ∑ j, l.det.trans j / fin m
                reflPer := fun j => r'.reflPer j + (l.det.refl j + l.det.incRefl j) / fin m
                transPer := fun j => r'.transPer j + l.det.trans j / fin m }, by
            rw [calcSphere]
            simp only [hl, bind, Except.bind, dif_pos (And.intro hc.1 (And.intro hc.2 hstk)), hF', hW, ht'', hr', pure, Except.pure], ?_, ?_, ?_, ?_⟩
      · intro j
        simp only [hRp, hL.refl, hL.incRefl, fin_add, fin_div _ hm0, hdr, fin_inj]
        ring
      · intro j
        simp only [hTp, hL.trans, fin_add, fin_div _ hm0, hdt, fin_inj]
        ring
      · simp only [hR', hL.refl, hL.incRefl, fin_add, fin_div _ hm0, sum_fin, hdr, fin_inj]
        rw [← Finset.sum_add_distrib]
        exact Finset.sum_congr rfl fun j _ => by ring
      · simp only [hT', hL.trans, fin_add, fin_div _ hm0, sum_fin, hdt, fin_inj]
        rw [← Finset.sum_add_distrib]
        exact Finset.sum_congr rfl fun j _ => by ring
    · refine ⟨fun j => c.Pr j + 1 / 2 * (c.fr j + c.ft j + c.s j) + ir j, fun j => c.Pt j + 1 / 2 * (c.ft j + c.fr j + c.s j),
        fun j => ⟨?_, ?_⟩, ?_⟩
      · have := hg.fr0 j; have := hg.ft0 j; have := hg.s0 j; have := hg.Pr0 j; have := (hir j).1
        linarith
      · have := hg.fr0 j; have := hg.ft0 j; have := hg.s0 j; have := hg.Pt0 j
        linarith
      intro m hm σ
      have hm0 : (m : ℝ) ≠ 0 := by exact_mod_cast hm.ne'
      obtain ⟨l, hl, hL, hdr, hdt, hrd, htd⟩ := hpick σ
      refine ⟨distribute l.exit l.det l.out.stuck .sphere false, by
        rw [calcSphere]
        simp only [hl, bind, Except.bind, dif_neg (fun h : d.run_fresnel_traj = true ∧ depth < M ∧ (fin d.max_stuck : XF) < l.totalStuck =>
          hc ⟨h.1, h.2.1⟩), pure, Except.pure], ?_⟩
      have e1 : ∀ j, (distribute l.exit l.det l.out.stuck .sphere false).reflPer j =
          fin ((c.Pr (σ j) + 1 / 2 * (c.fr (σ j) + c.ft (σ j) + c.s (σ j)) + ir (σ j)) / m) := fun j => by
        simp only [distribute, hL.reflFresnel, hL.transFresnel, hL.stuck, hL.refl, hL.incRefl, hL.rdf, Bool.false_eq_true, if_false,
          fin_add, fin_mul, fin_div _ hm0, hrd, hdr, mul_one]
        rfl
      have e2 : ∀ j, (distribute l.exit l.det l.out.stuck .sphere false).transPer j =
          fin ((c.Pt (σ j) + 1 / 2 * (c.ft (σ j) + c.fr (σ j) + c.s (σ j))) / m) := fun j => by
        simp only [distribute, hL.reflFresnel, hL.transFresnel, hL.stuck, hL.trans, hL.tdf, fin_add, fin_mul, fin_div _ hm0, htd, hdt, mul_one]
        rfl
      refine ⟨e1, e2, ?_, ?_⟩
      · show ∑ j, (distribute l.exit l.det l.out.stuck .sphere false).reflPer j = _
        rw [Finset.sum_congr rfl fun j _ => e1 j, sum_fin]
      · show ∑ j, (distribute l.exit l.det l.out.stuck .sphere false).transPer j = _
        rw [Finset.sum_congr rfl fun j _ => e2 j, sum_fin]

theorem simulate_pick_sphere {a : Args nt} {S : Sampling nt num} {d : SphereArgs} {draws : ℕ → Draws nt num}
    (H : SphereDomain a S d draws) (hmie : S.mu_scat_mie = none ∨ S.fine_roughness = 0) (σ : Fin m → Fin nt) (nev : ℕ) :
    simulate nev (pickArgs σ a) (pickSampling σ S) = (simulate nev a S).map (pickTrajs σ) := by
  have hstep := step_pick σ S.mu_scat S.mu_scat_mie S.fine_roughness S.rand_step S.rand_mie hmie
  have hang := angles_pick σ nev S.p S.min_angle S.draw_theta S.rand_phi
  unfold simulate
  have hi : initializeTraj (pickArgs σ a) = (initializeTraj a).map fun p =>
      ⟨fun i j => p.r0 i (σ j), fun i j => p.k0 i (σ j), fun i j => p.weight0 i (σ j), p.kz0_rot.map fun f j => f (σ j),
        p.kz0_refl.map fun f j => f (σ j)⟩ := by
    unfold initializeTraj
    simp only [pickArgs, H.sphere, H.diameter, enter, if_pos H.smooth]
    rfl
  rw [hi]
  simp only [pickSampling, hstep, hang]
  cases initializeTraj a with
  | error e => rfl
  | ok p =>
    cases sampleAngles1 nev S.p S.min_angle S.draw_theta S.rand_phi with
    | error e => rfl
    | ok ang =>
      cases sampleStep nt S.mu_scat S.mu_scat_mie S.fine_roughness S.rand_step S.rand_mie with
      | error e => rfl
      | ok s =>
        simp only [Except.map, bind, Except.bind, pure, Except.pure, pickTrajs]
        rw [scatter_pick σ nev (fun i j => valV (p.k0 i j)) ang.sintheta ang.costheta ang.sinphi ang.cosphi,
          move_pick σ (fun i j => valV (p.r0 i j)) (fun i j => val (s i j))]
        simp only [Option.map_map]
        rfl

/-- C144.  **A run of a sphere is the average of its photons.**  The detector sees the whole hemispheres, and either light that is sent back
at the surface is not simulated further, or it always is (`max_stuck` negative).  Each photon has a contribution of its own (`fR`, `fT`):
whatever other photons are simulated in the same run, in whatever order, the run gives it that contribution, divided by the number of
photons in the run, and reflectance and transmittance are the averages of the contributions. -/
theorem C144_sphere_photons {a : Args nt} {S : Sampling nt num} {d : SphereArgs} {draws : ℕ → Draws nt num}
    (H : SphereDomain a S d draws) (hdet : d.detection_angle = Real.pi / 2)
    (hfine : d.fine_roughness = 0 ∨ ∀ p m, d.n_particle = some p → d.n_matrix = some m → d.n_sample ≤ max p m)
    (hmie : S.mu_scat_mie = none ∨ S.fine_roughness = 0) (hrun : d.run_fresnel_traj = false ∨ d.max_stuck < 0) (nev : ℕ) :
    ∃ fR fT : Fin nt → ℝ, (∀ j, 0 ≤ fR j ∧ 0 ≤ fT j ∧ fR j + fT j ≤ 1) ∧ ∀ {m : ℕ} (_ : 0 < m) (σ : Fin m → Fin nt), ∃ rt,
      runSphere nev (pickArgs σ a) (pickSampling σ S) d (fun g => pickDraws σ (draws g)) = .ok rt ∧
      (∀ j, rt.reflPer j = fin (fR (σ j) / m)) ∧ (∀ j, rt.transPer j = fin (fT (σ j) / m)) ∧
      rt.R = fin ((∑ j, fR (σ j)) / m) ∧ rt.T = fin ((∑ j, fT (σ j)) / m) := by
  obtain ⟨ho, hon⟩ := sphere_optics H
  obtain ⟨t, ht, hgen, hent⟩ := sphere_simulate H nev
  have hs : 0 < d.n_sample := lt_of_lt_of_le H.medium_pos H.not_denser
  have hns : d.optics.n_sample ≤ d.optics.n_tir :=
    nTir_ge (d := ⟨d.n_medium, d.n_sample, 0, 0, none, none, 0, d.fine_roughness, d.n_particle, d.n_matrix, none⟩) H.fine hfine
  obtain ⟨fR, fT, h0, hall⟩ := batch_core H hon hrun _ d.optics ho hs hns hdet d.max_call_depth 0 nev _ (fun _ => 1) rfl
    (fun _ => by norm_num) hgen (fun _ => hent)
  have key : ∀ {m : ℕ} (_ : 0 < m) (σ : Fin m → Fin nt), ∃ rt,
      runSphere nev (pickArgs σ a) (pickSampling σ S) d (fun g => pickDraws σ (draws g)) = .ok rt ∧
      (∀ j, rt.reflPer j = fin (fR (σ j) / m)) ∧ (∀ j, rt.transPer j = fin (fT (σ j) / m)) ∧
      rt.R = fin ((∑ j, fR (σ j)) / m) ∧ rt.T = fin ((∑ j, fT (σ j)) / m) := by
    intro m hm σ
    obtain ⟨rt, hrt, h1, h2, h3, h4⟩ := hall hm σ
    refine ⟨rt, ?_, h1, h2, by rw [h3, Finset.sum_div], by rw [h4, Finset.sum_div]⟩
    have hsim := simulate_pick_sphere H hmie σ nev
    rw [ht] at hsim
    unfold runSphere
    rw [hsim]
    exact hrt
  refine ⟨fR, fT, fun j => ⟨(h0 j).1, (h0 j).2, ?_⟩, key⟩
  -- the bound for one photon is that of a run with one photon
  have H1 : SphereDomain (pickArgs (fun _ : Fin 1 => j) a) (pickSampling (fun _ : Fin 1 => j) S) d
      (fun g => pickDraws (fun _ : Fin 1 => j) (draws g)) :=
    { nt_pos := one_pos, sphere := H.sphere, smooth := H.smooth, diameter := H.diameter, diameter_pos := H.diameter_pos, spot := H.spot
      same_medium := H.same_medium, same_sample := H.same_sample, medium_pos := H.medium_pos, not_denser := H.not_denser, front := H.front
      back := H.back, particle := H.particle, matrix := H.matrix, fine := H.fine, draw_r := fun _ => H.draw_r j, phase := H.phase
      min_angle := H.min_angle, phase_pos := H.phase_pos, phase_pos_rerun := H.phase_pos_rerun, rand_phi := fun i _ => H.rand_phi i j
      mu_scat := H.mu_scat, mu_mie := H.mu_mie, fine_step := H.fine_step, rand_step := fun i _ => H.rand_step i j, rand_mie := H.rand_mie
      mu_abs := H.mu_abs, rerun_phi := fun d' i _ => H.rerun_phi d' i j, rerun_step := fun d' i _ => H.rerun_step d' i j
      rerun_mie := H.rerun_mie }
  obtain ⟨rt, R, T, hrt, hR, hT, -, -, hle⟩ := C100_sphere_run_fractions H1 nev
  obtain ⟨rt', hrt', -, -, hR', hT'⟩ := key one_pos (fun _ : Fin 1 => j)
  rw [hrt] at hrt'
  injection hrt' with hrt'
  subst hrt'
  rw [hR, fin_inj] at hR'
  rw [hT, fin_inj] at hT'
  simp at hR' hT'
  rw [← hR', ← hT']
  exact hle

/-- C144.  **Averaging batches.**  Under the same conditions a run of a sphere may be split into two batches: reflectance and transmittance
of the whole run are the averages of those of the batches, weighted with the numbers of trajectories. -/
theorem C144_sphere_batches {n₁ n₂ : ℕ} {a : Args (n₁ + n₂)} {S : Sampling (n₁ + n₂) num} {d : SphereArgs} {draws : ℕ → Draws (n₁ + n₂) num}
    (H : SphereDomain a S d draws) (hdet : d.detection_angle = Real.pi / 2)
    (hfine : d.fine_roughness = 0 ∨ ∀ p m, d.n_particle = some p → d.n_matrix = some m → d.n_sample ≤ max p m)
    (hmie : S.mu_scat_mie = none ∨ S.fine_roughness = 0) (hrun : d.run_fresnel_traj = false ∨ d.max_stuck < 0) (nev : ℕ)
    (h₁ : 0 < n₁) (h₂ : 0 < n₂) :
    let σ₁ : Fin n₁ → Fin (n₁ + n₂) := Fin.castAdd n₂
    let σ₂ : Fin n₂ → Fin (n₁ + n₂) := Fin.natAdd n₁
    ∃ rt rt₁ rt₂ R₁ R₂ T₁ T₂, runSphere nev a S d draws = .ok rt ∧
      runSphere nev (pickArgs σ₁ a) (pickSampling σ₁ S) d (fun g => pickDraws σ₁ (draws g)) = .ok rt₁ ∧
      runSphere nev (pickArgs σ₂ a) (pickSampling σ₂ S) d (fun g => pickDraws σ₂ (draws g)) = .ok rt₂ ∧
      rt₁.R = fin R₁ ∧ rt₁.T = fin T₁ ∧ rt₂.R = fin R₂ ∧ rt₂.T = fin T₂ ∧
      rt.R = fin ((n₁ * R₁ + n₂ * R₂) / (n₁ + n₂)) ∧ rt.T = fin ((n₁ * T₁ + n₂ * T₂) / (n₁ + n₂)) := by
  intro σ₁ σ₂
  obtain ⟨fR, fT, -, key⟩ := C144_sphere_photons H hdet hfine hmie hrun nev
  obtain ⟨rt, hrt, -, -, hR, hT⟩ := key (m := n₁ + n₂) (by omega) id
  obtain ⟨rt₁, hrt₁, -, -, hR₁, hT₁⟩ := key h₁ σ₁
  obtain ⟨rt₂, hrt₂, -, -, hR₂, hT₂⟩ := key h₂ σ₂
  have e₁ : (n₁ : ℝ) ≠ 0 := by exact_mod_cast h₁.ne'
  have e₂ : (n₂ : ℝ) ≠ 0 := by exact_mod_cast h₂.ne'
  refine ⟨rt, rt₁, rt₂, _, _, _, _, hrt, hrt₁, hrt₂, hR₁, hT₁, hR₂, hT₂, ?_, ?_⟩
  · rw [hR, fin_inj, mul_div_cancel₀ _ e₁, mul_div_cancel₀ _ e₂, ← Nat.cast_add, ← Fin.sum_univ_add]
    rfl
  · rw [hT, fin_inj, mul_div_cancel₀ _ e₁, mul_div_cancel₀ _ e₂, ← Nat.cast_add, ← Fin.sum_univ_add]
    rfl

/-- Non-vacuity of C144: two photons in the sphere of `demo_sphereRun`, with their own start points and steps, and no re-runs. -/
example : ∃ (a : Args (1 + 1)) (S : Sampling (1 + 1) 3) (d : SphereArgs) (draws : ℕ → Draws (1 + 1) 3), SphereDomain a S d draws ∧
    d.detection_angle = Real.pi / 2 ∧ d.fine_roughness = 0 ∧ S.mu_scat_mie = none ∧ d.run_fresnel_traj = false ∧
    a.ur 0 ≠ a.ur 1 ∧ S.rand_step 0 0 ≠ S.rand_step 0 1 := by
  have h := demo_sphereRun 1 zero_le_one
  refine ⟨⟨1, 3 / 2, .sphere, 0, 0, none, 0, 0, none, 1, some 2, 0, fun _ => 0, fun _ => 0, fun _ => 0, fun _ => 0,
      fun j => if j = 0 then 1 / 2 else 1 / 3, fun _ => 0, fun _ => 0⟩,
    { p := (demoSampling 1).p, min_angle := 0, draw_theta := fun _ _ => 1, rand_phi := fun _ _ => 0, mu_scat := 1, mu_scat_mie := none,
      fine_roughness := 0, rand_step := fun _ j => if j = 0 then 1 / 2 else 1 / 4, rand_mie := fun _ => 1 / 2, mu_abs := 1 },
    ⟨1, 3 / 2, 2, none, none, Real.pi / 2, 0, none, none, false, 20, 1 / 100⟩,
    (fun _ => ⟨fun _ _ => 1, fun _ _ => 0, fun _ _ => 1 / 2, fun _ => 1 / 2⟩),
    { nt_pos := by norm_num, sphere := rfl, smooth := rfl, diameter := rfl, diameter_pos := by norm_num, spot := by norm_num
      same_medium := rfl, same_sample := rfl, medium_pos := one_pos, not_denser := by norm_num, front := fun x hx => (nomatch hx)
      back := fun x hx => (nomatch hx), particle := fun x hx => (nomatch hx), matrix := fun x hx => (nomatch hx)
      fine := ⟨le_rfl, zero_le_one⟩, draw_r := fun j => by fin_cases j <;> norm_num, phase := h.phase, min_angle := ⟨le_rfl, Real.pi_pos.le⟩
      phase_pos := h.phase_pos, phase_pos_rerun := h.phase_pos_rerun, rand_phi := fun _ _ => ⟨le_rfl, one_pos⟩, mu_scat := one_pos
      mu_mie := fun m hm => (nomatch hm), fine_step := ⟨le_rfl, zero_le_one⟩, rand_step := fun _ j => by fin_cases j <;> norm_num
      rand_mie := fun _ => by norm_num, mu_abs := zero_le_one, rerun_phi := fun _ _ _ => ⟨le_rfl, one_pos⟩
      rerun_step := fun _ _ _ => by norm_num, rerun_mie := fun _ _ => by norm_num }, rfl, rfl, rfl, rfl, ?_, ?_⟩ <;> norm_num

end
end Verif.Props
