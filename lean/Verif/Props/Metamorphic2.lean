import Verif.Props.Metamorphic

/-!
# C98, C99: relabelling trajectories; what happens after a photon has left
-/

namespace Verif.Props
open Classical Verif.Spec Verif.Root Verif.Fresnel Verif.Exits Verif.Weights XF
open Verif.Simulation Verif.Traj
open Verif.Geometry (selectTirTraj tirInit calcIndicesDetected shiftTrajTir)

variable {nt num : ℕ}

/-! ## C98 -/

/-- The same trajectories in another order. -/
def permTrajs (σ : Equiv.Perm (Fin nt)) (t : Trajs nt) : Trajs nt :=
  { position := fun i j => t.position i (σ j)
    direction := fun i j => t.direction i (σ j)
    weight := fun i j => t.weight i (σ j)
    kz0_rot := t.kz0_rot.map fun f j => f (σ j)
    kz0_refl := t.kz0_refl.map fun f j => f (σ j) }

/-- The same result with the per-trajectory arrays in another order. -/
def permRT (σ : Equiv.Perm (Fin nt)) (rt : RT nt) : RT nt :=
  { R := rt.R, T := rt.T, reflPer := fun j => rt.reflPer (σ j), transPer := fun j => rt.transPer (σ j) }

theorem exists_perm (σ : Equiv.Perm (Fin nt)) (P : Fin nt → Prop) : (∃ i, P (σ i)) ↔ ∃ i, P i :=
  ⟨fun ⟨i, h⟩ => ⟨σ i, h⟩, fun ⟨i, h⟩ => ⟨σ.symm i, by simpa using h⟩⟩

theorem sum_perm (σ : Equiv.Perm (Fin nt)) (f : Fin nt → XF) : ∑ j, f (σ j) = ∑ j, f j := Equiv.sum_comp σ f

private theorem fresnelReflection_perm (σ : Equiv.Perm (Fin nt)) (n1 n2 : ℝ) (θ : Fin nt → XF) :
    fresnelReflection n1 n2 (fun j => θ (σ j)) =
      (fresnelReflection n1 n2 θ).map fun p => (fun j => p.1 (σ j), fun j => p.2 (σ j)) := by
  unfold fresnelReflection
  simp only [exists_perm σ fun i => (fin (Real.pi / 2) : XF) < θ i]
  split <;> rfl

theorem passFrac_perm (σ : Equiv.Perm (Fin nt)) (θ : Fin nt → XF) (nb : ℝ) (ni : Option ℝ) (na : ℝ) :
    fresnelPassFrac (fun j => θ (σ j)) nb ni na = (fresnelPassFrac θ nb ni na).map fun p j => p (σ j) := by
  have hin : ∀ n1 n2, fresnelReflection n1 n2 (fun i => nanToHalfPi (refraction (fun j => θ (σ j)) (fin nb) (fin (ni.getD nb)) i)) = _ :=
    fun n1 n2 => fresnelReflection_perm σ n1 n2 (fun i => nanToHalfPi (refraction θ (fin nb) (fin (ni.getD nb)) i))
  unfold fresnelPassFrac fresnelTransmission
  simp only [fresnelReflection_perm σ, hin]
  cases fresnelReflection nb (ni.getD nb) θ with
  | error e => rfl
  | ok p =>
    cases fresnelReflection (ni.getD nb) na (fun i => nanToHalfPi (refraction θ (fin nb) (fin (ni.getD nb)) i)) with
    | error e => rfl
    | ok q =>
      cases fresnelReflection (ni.getD nb) nb (fun i => nanToHalfPi (refraction θ (fin nb) (fin (ni.getD nb)) i)) with
      | error e => rfl
      | ok r => rfl

/-- The geometry of relabelled trajectories. -/
def permGeo (σ : Equiv.Perm (Fin nt)) (g : Weights.Geometry nt) : Weights.Geometry nt :=
  ⟨fun j => g.ri (σ j), fun j => g.ti (σ j), fun j => g.si (σ j), fun j => g.thInc (σ j), fun j => g.thIncDet (σ j),
    fun j => g.thRefl (σ j), fun j => g.thTrans (σ j)⟩

/-- Relabelled results of `fresnel_correct_exit`. -/
def permExit (σ : Equiv.Perm (Fin nt)) (X : ExitFresnel nt) : ExitFresnel nt :=
  ⟨X.reflFrac, X.transFrac, fun j => X.reflPass (σ j), fun j => X.transPass (σ j), fun j => X.reflFresnel (σ j),
    fun j => X.transFresnel (σ j)⟩

/-- Relabelled results of `detect_corrected_traj`. -/
def permDet (σ : Equiv.Perm (Fin nt)) (D : Detected nt) : Detected nt :=
  ⟨fun j => D.incRefl (σ j), fun j => D.trans (σ j), fun j => D.refl (σ j), D.transDetFrac, D.reflDetFrac⟩

theorem detect_perm (σ : Equiv.Perm (Fin nt)) (inc : Fin nt → XF) (ns nm : ℝ) (a b c d e : Fin nt → XF) (da : ℝ)
    (k : Option (Fin nt → ℝ)) :
    detectCorrectedTraj (fun j => inc (σ j)) ns nm (fun j => a (σ j)) (fun j => b (σ j)) (fun j => c (σ j))
      (fun j => d (σ j)) (fun j => e (σ j)) da (k.map fun f j => f (σ j)) =
    permDet σ (detectCorrectedTraj inc ns nm a b c d e da k) := by
  have e2 : ∀ a b c d f, (detectCorrect (fun j => a (σ j)) (fun j => b (σ j)) c d f : Fin nt → XF) =
    fun j => detectCorrect a b c d f (σ j) := fun _ _ _ _ _ => rfl
  unfold detectCorrectedTraj permDet
  simp only [e2, sum_perm σ d, sum_perm σ e, sum_perm σ (detectCorrect c e ns nm da), sum_perm σ (detectCorrect b d ns nm da)]
  cases k <;> rfl

theorem distribute_perm (σ : Equiv.Perm (Fin nt)) (X : ExitFresnel nt) (D : Detected nt) (s : Fin nt → XF)
    (b : Boundary) (det : Bool) :
    distribute (permExit σ X) (permDet σ D) (fun j => s (σ j)) b det = permRT σ (distribute X D s b det) := by
  have hper : (distribute (permExit σ X) (permDet σ D) (fun j => s (σ j)) b det).reflPer =
        (fun j => (distribute X D s b det).reflPer (σ j)) ∧
      (distribute (permExit σ X) (permDet σ D) (fun j => s (σ j)) b det).transPer =
        fun j => (distribute X D s b det).transPer (σ j) := by
    cases b <;> cases det <;> exact ⟨rfl, rfl⟩
  have hR : (distribute (permExit σ X) (permDet σ D) (fun j => s (σ j)) b det).R = (distribute X D s b det).R := by
    show ∑ j, (distribute (permExit σ X) (permDet σ D) (fun j => s (σ j)) b det).reflPer j =
      ∑ j, (distribute X D s b det).reflPer j
    rw [hper.1]; exact sum_perm σ _
  have hT : (distribute (permExit σ X) (permDet σ D) (fun j => s (σ j)) b det).T = (distribute X D s b det).T := by
    show ∑ j, (distribute (permExit σ X) (permDet σ D) (fun j => s (σ j)) b det).transPer j =
      ∑ j, (distribute X D s b det).transPer j
    rw [hper.2]; exact sum_perm σ _
  generalize distribute (permExit σ X) (permDet σ D) (fun j => s (σ j)) b det = A at *
  obtain ⟨r, t, rp, tp⟩ := A
  simp only at hper hR hT
  simp only [permRT, hper.1, hper.2, hR, hT]

private theorem calc_perm {nev : ℕ} (σ : Equiv.Perm (Fin nt)) (o : Optics) (b : Boundary) (g : Weights.Geometry nt)
    (kz0_refl : Option (Fin nt → ℝ)) (det : Bool) (w : Fin nev → Fin nt → XF) :
    calcReflTrans o b (permGeo σ g) (kz0_refl.map fun f j => f (σ j)) det (fun e j => w e (σ j)) =
      (calcReflTrans o b g kz0_refl det w).map (permRT σ) := by
  unfold calcReflTrans level incPassFrac fresnelCorrectExit
  simp only [Bool.false_eq_true, if_false, permGeo, passFrac_perm σ]
  cases fresnelPassFrac g.thInc o.n_medium o.n_front o.n_tir with
  | error e => rfl
  | ok inc =>
    cases fresnelPassFrac g.thRefl o.n_tir o.n_front o.n_medium with
    | error e => rfl
    | ok pR =>
      cases fresnelPassFrac g.thTrans o.n_tir o.n_back o.n_medium with
      | error e => rfl
      | ok pT =>
        have e : ∀ ev : Fin nt → ℕ, sel (fun e j => w e (σ j)) (fun j => ev (σ j)) = fun j => sel w ev (σ j) := fun _ => rfl
        simp only [Except.map, bind, Except.bind, pure, Except.pure, calcOutcomeWeights, e]
        simp only [sum_perm σ fun j => inc j * sel w g.ri j * pR j, sum_perm σ fun j => inc j * sel w g.ti j * pT j,
          sum_perm σ fun j => inc j - inc j * sel w g.ri j - inc j * sel w g.ti j - inc j * sel w g.si j +
            inc j * sel w g.ri j * pR j + inc j * sel w g.ti j * pT j]
        congr 1
        refine Eq.trans ?_ (distribute_perm σ _ _ (fun j => inc j * sel w g.si j) b det)
        congr 1
        exact detect_perm σ inc _ _ g.thIncDet g.thRefl g.thTrans (fun j => inc j * sel w g.ri j * pR j)
          (fun j => inc j * sel w g.ti j * pT j) _ _

/-- C98.  The order of the trajectories does not matter: relabelling them relabels the per-trajectory results and leaves
reflectance and transmittance unchanged (also errors and NaN), with or without roughness, cover slips, goniometer. -/
theorem C98_order_irrelevant (nev : ℕ) (d : DetArgs) (t : Trajs nt) (σ : Equiv.Perm (Fin nt)) :
    Simulation.calcReflTransFilm nev d (permTrajs σ t) = (Simulation.calcReflTransFilm nev d t).map (permRT σ) := by
  have hrough : roughnessArgs (permTrajs σ t).kz0_rot (permTrajs σ t).kz0_refl = roughnessArgs t.kz0_rot t.kz0_refl := by
    simp only [permTrajs, roughnessArgs, Option.isNone_map, Option.isSome_map]
  have hinc : ∀ (nm ns : ℝ) (k : Fin nt → ℝ), incAngleFilm nm ns (fun j => k (σ j)) (permTrajs σ t).kz0_rot =
      fun j => incAngleFilm nm ns k t.kz0_rot (σ j) := by
    intro nm ns k
    simp only [permTrajs]
    cases t.kz0_rot <;> rfl
  have hX : findValidExitsFilm (nev := nev + 1) (nt := nt) d.optics.n_tir d.optics.n_medium d.thickness d.z_low
      (fun i j => ((permTrajs σ t).position i j).z) (fun i j => ((permTrajs σ t).direction i j).z) =
    let X := findValidExitsFilm (nev := nev + 1) d.optics.n_tir d.optics.n_medium d.thickness d.z_low (fun i j => (t.position i j).z)
      (fun i j => (t.direction i j).z)
    ⟨fun e j => X.pos e (σ j), fun e j => X.neg e (σ j), fun e j => X.tir e (σ j)⟩ := rfl
  have hgeo : filmGeometry (nev := nev) (nt := nt) d.optics d.thickness d.z_low (fun i j => ((permTrajs σ t).position i j).z)
      (fun i j => ((permTrajs σ t).direction i j).z) (permTrajs σ t).kz0_rot id =
    permGeo σ (filmGeometry (nev := nev) d.optics d.thickness d.z_low (fun i j => (t.position i j).z) (fun i j => (t.direction i j).z)
      t.kz0_rot id) := by
    simp only [filmGeometry, hX, permGeo, id, Weights.Geometry.mk.injEq]
    refine ⟨rfl, rfl, rfl, hinc _ _ (fun j => (t.direction 0 j).z), rfl, rfl, rfl⟩
  have hgonio : ∀ a b c, gonioGeometry nev d (permTrajs σ t) a b c = permGeo σ (gonioGeometry nev d t a b c) := by
    intro a b c
    simp only [gonioGeometry, permGeo, Weights.Geometry.mk.injEq]
    refine ⟨rfl, rfl, rfl, ?_, rfl, rfl, rfl⟩
    exact hinc _ _ (fun j => (Geometry.shiftTrajTir (fun n => (t.position n j).z) (fun n => (t.direction n j).z) _).2 (0 : Fin (nev + 1)))
  cases hg : d.gonio with
  | none =>
    simp only [Simulation.calcReflTransFilm, hg, Weights.calcReflTransFilm, hrough]
    cases roughnessArgs t.kz0_rot t.kz0_refl with
    | error e => rfl
    | ok _ =>
      simp only [bind, Except.bind, Bool.false_eq_true, if_false, hgeo]
      exact calc_perm σ d.optics .film _ t.kz0_refl false (fun (e : Fin (nev + 1)) j => fin (t.weight e j))
  | some g =>
    obtain ⟨a, b, c⟩ := g
    simp only [Simulation.calcReflTransFilm, hg, hrough]
    cases roughnessArgs t.kz0_rot t.kz0_refl with
    | error e => rfl
    | ok _ =>
      simp only [bind, Except.bind]
      rw [hgonio]
      exact calc_perm σ d.optics .film _ t.kz0_refl true (fun (e : Fin (nev + 1)) j => fin (t.weight e j))

/-- Non-vacuity of C98: two photons exchanged. -/
example (d : DetArgs) (t : Trajs 2) (h : t.weight 0 0 ≠ t.weight 0 1) :
    permTrajs (Equiv.swap 0 1) t ≠ t ∧
      Simulation.calcReflTransFilm 3 d (permTrajs (Equiv.swap 0 1) t) =
        (Simulation.calcReflTransFilm 3 d t).map (permRT (Equiv.swap 0 1)) := by
  refine ⟨fun e => h ?_, C98_order_irrelevant 3 d t _⟩
  have := congrFun (congrFun (congrArg Trajs.weight e) 0) 0
  simpa [permTrajs] using this.symm

/-! ## C99 -/

theorem calc_congr {nev nev' : ℕ} (o : Optics) (b : Boundary) {g g' : Weights.Geometry nt}
    (k : Option (Fin nt → ℝ)) (det : Bool) {w : Fin nev → Fin nt → XF} {w' : Fin nev' → Fin nt → XF}
    (h1 : g'.thInc = g.thInc) (h2 : g'.thIncDet = g.thIncDet) (h3 : g'.thRefl = g.thRefl) (h4 : g'.thTrans = g.thTrans)
    (h5 : sel w' g'.ri = sel w g.ri) (h6 : sel w' g'.ti = sel w g.ti) (h7 : sel w' g'.si = sel w g.si) :
    calcReflTrans o b g' k det w' = calcReflTrans o b g k det w := by
  unfold calcReflTrans level incPassFrac calcOutcomeWeights
  simp only [h1, h2, h3, h4, h5, h6, h7]

/-- What `find_valid_exits` followed by `find_event_indices` reports for a film: the reflected, transmitted and stuck event
numbers and the event of the first total reflection. -/
noncomputable def reportedEvents (nev : ℕ) (d : DetArgs) (t : Trajs nt) :=
  let X := findValidExitsFilm (nev := nev + 1) d.optics.n_tir d.n_medium d.thickness d.z_low
    (fun i j => (t.position i j).z) (fun i j => (t.direction i j).z)
  findEventIndices X.neg X.pos X.tir

private theorem exits_prefix (nev nev' : ℕ) (d : DetArgs) (t t' : Trajs nt) (m : Fin nt → ℕ)
    (hm : ∀ j, 1 ≤ m j ∧ m j ≤ nev' + 1)
    (hexit : ∀ j, (reportedEvents nev d t).1 j = m j ∨ (reportedEvents nev d t).2.1 j = m j)
    (hpos : ∀ j i, i ≤ m j → (t'.position i j).z = (t.position i j).z)
    (hdir : ∀ j i, i < m j → (t'.direction i j).z = (t.direction i j).z) : ∀ j, (reportedEvents nev' d t').1 j = (reportedEvents nev d t).1 j ∧
      (reportedEvents nev' d t').2.1 j = (reportedEvents nev d t).2.1 j ∧
      (reportedEvents nev' d t').2.2.1 j = 0 ∧ (reportedEvents nev d t).2.2.1 j = 0 ∧
      ((reportedEvents nev d t).1 j = 0 ∨ (reportedEvents nev d t).1 j = m j) ∧
      ((reportedEvents nev d t).2.1 j = 0 ∨ (reportedEvents nev d t).2.1 j = m j) ∧ m j ≤ nev + 1 := by
  set X := findValidExitsFilm (nev := nev + 1) d.optics.n_tir d.n_medium d.thickness d.z_low
    (fun i j => (t.position i j).z) (fun i j => (t.direction i j).z) with hX
  set X' := findValidExitsFilm (nev := nev' + 1) d.optics.n_tir d.n_medium d.thickness d.z_low
    (fun i j => (t'.position i j).z) (fun i j => (t'.direction i j).z) with hX'
  have hflag : ∀ j (e : ℕ) (h : e < nev + 1) (h' : e < nev' + 1), e < m j →
      X'.neg ⟨e, h'⟩ j = X.neg ⟨e, h⟩ j ∧ X'.pos ⟨e, h'⟩ j = X.pos ⟨e, h⟩ j := by
    intro j e h h' he
    have p0 := hpos j e he.le
    have p1 := hpos j (e + 1) he
    have k0 := hdir j e he
    constructor <;>
    · simp only [hX, hX', findValidExitsFilm, Fin.castSucc_mk, Fin.succ_mk, p0, p1, k0]
  change ∀ j, (findEventIndices X'.neg X'.pos X'.tir).1 j = (findEventIndices X.neg X.pos X.tir).1 j ∧
      (findEventIndices X'.neg X'.pos X'.tir).2.1 j = (findEventIndices X.neg X.pos X.tir).2.1 j ∧
      (findEventIndices X'.neg X'.pos X'.tir).2.2.1 j = 0 ∧ (findEventIndices X.neg X.pos X.tir).2.2.1 j = 0 ∧
      ((findEventIndices X.neg X.pos X.tir).1 j = 0 ∨ (findEventIndices X.neg X.pos X.tir).1 j = m j) ∧
      ((findEventIndices X.neg X.pos X.tir).2.1 j = 0 ∨ (findEventIndices X.neg X.pos X.tir).2.1 j = m j) ∧ m j ≤ nev + 1
  intro j
  obtain ⟨r1, r2, -⟩ := C10_first_exit (by omega : 1 ≤ nev + 1) X.neg X.pos X.tir j
  obtain ⟨s1, s2, -⟩ := C10_first_exit (by omega : 1 ≤ nev' + 1) X'.neg X'.pos X'.tir j
  have o1 := C09_exactly_one_outcome X.neg X.pos X.tir j
  have o2 := C09_exactly_one_outcome X'.neg X'.pos X'.tir j
  have hmj := hm j
  have hfl : ∀ k, k ≤ m j → k ≤ nev + 1 → k ≤ nev' + 1 → (flagged X'.neg j k ↔ flagged X.neg j k) ∧ (flagged X'.pos j k ↔ flagged X.pos j k) := by
    intro k hk h1 h2
    constructor
    · constructor
      · rintro ⟨e, he, hb⟩
        exact ⟨⟨e.val, by omega⟩, he, by rw [← (hflag j e.val (by omega) e.isLt (by omega)).1]; exact hb⟩
      · rintro ⟨e, he, hb⟩
        exact ⟨⟨e.val, by omega⟩, he, by rw [(hflag j e.val e.isLt (by omega) (by omega)).1]; exact hb⟩
    · constructor
      · rintro ⟨e, he, hb⟩
        exact ⟨⟨e.val, by omega⟩, he, by rw [← (hflag j e.val (by omega) e.isLt (by omega)).2]; exact hb⟩
      · rintro ⟨e, he, hb⟩
        exact ⟨⟨e.val, by omega⟩, he, by rw [(hflag j e.val e.isLt (by omega) (by omega)).2]; exact hb⟩
  rcases hexit j with h | h
  · change (findEventIndices X.neg X.pos X.tir).1 j = m j at h
    obtain ⟨f1, f2⟩ := (r1 _ hmj.1).1 h
    have hle := f1.2.1
    have h' : (findEventIndices X'.neg X'.pos X'.tir).1 j = m j := by
      refine (s1 _ hmj.1).2 ⟨⟨hmj.1, hmj.2, (hfl _ le_rfl hle hmj.2).1.2 f1.2.2.1, fun k k1 k2 hk => f1.2.2.2 k k1 k2 ((hfl k k2.le (by omega) (by omega)).1.1 hk)⟩,
        fun k hk hk' => f2 k hk ((hfl k hk (by omega) (by omega)).2.1 hk')⟩
    simp only at o1 o2
    refine ⟨h'.trans h.symm, ?_, ?_, ?_, Or.inr h, ?_, hle⟩ <;> omega
  · change (findEventIndices X.neg X.pos X.tir).2.1 j = m j at h
    obtain ⟨f1, f2⟩ := (r2 _ hmj.1).1 h
    have hle := f1.2.1
    have h' : (findEventIndices X'.neg X'.pos X'.tir).2.1 j = m j := by
      refine (s2 _ hmj.1).2 ⟨⟨hmj.1, hmj.2, (hfl _ le_rfl hle hmj.2).2.2 f1.2.2.1, fun k k1 k2 hk => f1.2.2.2 k k1 k2 ((hfl k k2.le (by omega) (by omega)).2.1 hk)⟩,
        fun k hk hk' => f2 k hk ((hfl k hk.le (by omega) (by omega)).1.1 hk')⟩
    simp only at o1 o2
    refine ⟨?_, h'.trans h.symm, ?_, ?_, ?_, Or.inr h, hle⟩ <;> omega

/-- C99 (a).  Suppose every trajectory leaves the film (is reported reflected or transmitted) at some event `m j`.  Then the
result is fixed by what happened up to that event: a second set of trajectories, with as many or other numbers of events,
that agrees with the first on positions up to event `m j` and on directions and weights before it gives the same reflectance
and transmittance. -/
theorem C99_after_exit_irrelevant (nev nev' : ℕ) (d : DetArgs) (hg : d.gonio = none) (t t' : Trajs nt) (m : Fin nt → ℕ)
    (hm : ∀ j, 1 ≤ m j ∧ m j ≤ nev' + 1)
    (hexit : ∀ j, (reportedEvents nev d t).1 j = m j ∨ (reportedEvents nev d t).2.1 j = m j)
    (hpos : ∀ j i, i ≤ m j → (t'.position i j).z = (t.position i j).z)
    (hdir : ∀ j i, i < m j → (t'.direction i j).z = (t.direction i j).z)
    (hw : ∀ j i, i < m j → t'.weight i j = t.weight i j)
    (hrot : t'.kz0_rot = t.kz0_rot) (hrefl : t'.kz0_refl = t.kz0_refl) :
    Simulation.calcReflTransFilm nev' d t' = Simulation.calcReflTransFilm nev d t := by
  simp only [Simulation.calcReflTransFilm, hg, Weights.calcReflTransFilm, hrot, hrefl]
  cases roughnessArgs t.kz0_rot t.kz0_refl with
  | error e => rfl
  | ok _ =>
  simp only [bind, Except.bind, Bool.false_eq_true, if_false]
  set X := findValidExitsFilm (nev := nev + 1) d.optics.n_tir d.n_medium d.thickness d.z_low
    (fun i j => (t.position i j).z) (fun i j => (t.direction i j).z) with hX
  set X' := findValidExitsFilm (nev := nev' + 1) d.optics.n_tir d.n_medium d.thickness d.z_low
    (fun i j => (t'.position i j).z) (fun i j => (t'.direction i j).z) with hX'
  have hidx : ∀ j, (findEventIndices X'.neg X'.pos X'.tir).1 j = (findEventIndices X.neg X.pos X.tir).1 j ∧
      (findEventIndices X'.neg X'.pos X'.tir).2.1 j = (findEventIndices X.neg X.pos X.tir).2.1 j ∧
      (findEventIndices X'.neg X'.pos X'.tir).2.2.1 j = 0 ∧ (findEventIndices X.neg X.pos X.tir).2.2.1 j = 0 ∧
      ((findEventIndices X.neg X.pos X.tir).1 j = 0 ∨ (findEventIndices X.neg X.pos X.tir).1 j = m j) ∧
      ((findEventIndices X.neg X.pos X.tir).2.1 j = 0 ∨ (findEventIndices X.neg X.pos X.tir).2.1 j = m j) ∧ m j ≤ nev + 1 :=
    exits_prefix nev nev' d t t' m hm hexit hpos hdir
  have hsel : ∀ {α : Type} [Zero α] (A : Fin (nev + 1) → Fin nt → α) (A' : Fin (nev' + 1) → Fin nt → α) (f f' : Fin nt → ℕ),
      (∀ j, f' j = f j) → (∀ j, f j = 0 ∨ f j = m j) →
      (∀ j e (h : e < nev + 1) (h' : e < nev' + 1), e < m j → A' ⟨e, h'⟩ j = A ⟨e, h⟩ j) → sel A' f' = sel A f := by
    intro α _ A A' f f' h1 h2 h3
    funext j
    have hmj := hm j
    have hle := (hidx j).2.2.2.2.2.2
    rcases h2 j with h | h
    · rw [sel_zero A f j h, sel_zero A' f' j (by rw [h1, h])]
    · rw [sel_pos A f j (by omega) (by omega), sel_pos A' f' j (by rw [h1]; omega) (by rw [h1]; omega)]
      simp only [h1]
      exact h3 j _ _ _ (by omega)
  have hk : ∀ j e (h : e < nev + 1) (h' : e < nev' + 1), e < m j →
      (fun (i : Fin (nev' + 1)) j => (t'.direction i j).z) ⟨e, h'⟩ j = (fun (i : Fin (nev + 1)) j => (t.direction i j).z) ⟨e, h⟩ j :=
    fun j e _ _ he => hdir j e he
  have hww : ∀ j e (h : e < nev + 1) (h' : e < nev' + 1), e < m j →
      (fun (i : Fin (nev' + 1)) j => (fin (t'.weight i j) : XF)) ⟨e, h'⟩ j = (fun (i : Fin (nev + 1)) j => (fin (t.weight i j) : XF)) ⟨e, h⟩ j :=
    fun j e _ _ he => congrArg fin (hw j e he)
  have hk0 : ∀ j, (t'.direction 0 j).z = (t.direction 0 j).z := fun j => hdir j 0 (hm j).1
  apply calc_congr
  · show incAngleFilm _ _ (fun j => (t'.direction 0 j).z) _ = incAngleFilm _ _ (fun j => (t.direction 0 j).z) _
    simp only [hk0]
  · show (fun j => angleFilm (fin (t'.direction 0 j).z)) = fun j => angleFilm (fin (t.direction 0 j).z)
    simp only [hk0]
  · show (fun j => angleFilm (fin (sel _ (findEventIndices X'.neg X'.pos X'.tir).1 j))) =
      fun j => angleFilm (fin (sel _ (findEventIndices X.neg X.pos X.tir).1 j))
    rw [hsel (fun i j => (t.direction i j).z) (fun i j => (t'.direction i j).z) _ _ (fun j => (hidx j).1)
      (fun j => (hidx j).2.2.2.2.1) hk]
  · show (fun j => angleFilm (fin (sel _ (findEventIndices X'.neg X'.pos X'.tir).2.1 j))) =
      fun j => angleFilm (fin (sel _ (findEventIndices X.neg X.pos X.tir).2.1 j))
    rw [hsel (fun i j => (t.direction i j).z) (fun i j => (t'.direction i j).z) _ _ (fun j => (hidx j).2.1)
      (fun j => (hidx j).2.2.2.2.2.1) hk]
  · exact hsel _ _ _ _ (fun j => (hidx j).1) (fun j => (hidx j).2.2.2.2.1) hww
  · exact hsel _ _ _ _ (fun j => (hidx j).2.1) (fun j => (hidx j).2.2.2.2.2.1) hww
  · exact hsel _ _ _ _ (fun j => (hidx j).2.2.1.trans (hidx j).2.2.2.1.symm) (fun j => Or.inl (hidx j).2.2.2.1) hww


private theorem tir_prefix {col col' : ℕ → ℝ} (ev ev' : ℕ) (i : ℕ) (h : ∀ k ≤ i, col' k = col k) :
    selectTirTraj col' ev' i = selectTirTraj col ev i := by
  induction i with
  | zero => simp [selectTirTraj, tirInit, h 0 le_rfl]
  | succ i ih =>
    have e := ih fun k hk => h k (by omega)
    have h1 := h (i + 1) le_rfl
    by_cases h0 : selectTirTraj col ev i = 0
    · simp only [selectTirTraj, e, h0, ne_eq, not_true, if_false, tirInit, h1]
      split_ifs <;> simp_all
    · simp only [selectTirTraj, e, h0, ne_eq, not_false_eq_true, if_true, h1]

/-- C99 (a), with a goniometer.  Also then the result is fixed by what happened up to the exits; the detector additionally sees the x and y
components of the positions and directions. -/
theorem C99_goniometer_after_exit_irrelevant (nev nev' : ℕ) (d : DetArgs) (t t' : Trajs nt) (m : Fin nt → ℕ)
    (hm : ∀ j, 1 ≤ m j ∧ m j ≤ nev' + 1)
    (hexit : ∀ j, (reportedEvents nev d t).1 j = m j ∨ (reportedEvents nev d t).2.1 j = m j)
    (hpos : ∀ j i, i ≤ m j → t'.position i j = t.position i j)
    (hdir : ∀ j i, i < m j → t'.direction i j = t.direction i j)
    (hw : ∀ j i, i < m j → t'.weight i j = t.weight i j)
    (hrot : t'.kz0_rot = t.kz0_rot) (hrefl : t'.kz0_refl = t.kz0_refl) :
    Simulation.calcReflTransFilm nev' d t' = Simulation.calcReflTransFilm nev d t := by
  rcases hg : d.gonio with _ | ⟨th, len, dist⟩
  · exact C99_after_exit_irrelevant nev nev' d hg t t' m hm hexit (fun j i h => by rw [hpos j i h]) (fun j i h => by rw [hdir j i h]) hw hrot hrefl
  simp only [Simulation.calcReflTransFilm, hg, hrot, hrefl]
  cases roughnessArgs t.kz0_rot t.kz0_refl with
  | error e => rfl
  | ok _ =>
  simp only [bind, Except.bind]
  have hidx := exits_prefix nev nev' d t t' m hm hexit (fun j i h => by rw [hpos j i h]) (fun j i h => by rw [hdir j i h])
  have hsel : ∀ {α : Type} [Zero α] (A : Fin (nev + 1) → Fin nt → α) (A' : Fin (nev' + 1) → Fin nt → α) (f f' : Fin nt → ℕ),
      (∀ j, f' j = f j) → (∀ j, f j = 0 ∨ f j = m j) →
      (∀ j e (h : e < nev + 1) (h' : e < nev' + 1), e < m j → A' ⟨e, h'⟩ j = A ⟨e, h⟩ j) → sel A' f' = sel A f := by
    intro α _ A A' f f' h1 h2 h3
    funext j
    have hmj := hm j
    have hle := (hidx j).2.2.2.2.2.2
    rcases h2 j with h | h
    · rw [sel_zero A f j h, sel_zero A' f' j (by rw [h1, h])]
    · rw [sel_pos A f j (by omega) (by omega), sel_pos A' f' j (by rw [h1]; omega) (by rw [h1]; omega)]
      simp only [h1]
      exact h3 j _ _ _ (by omega)
  have hpz : ∀ j e, e ≤ m j →
      (shiftTrajTir (fun n => (t'.position n j).z) (fun n => (t'.direction n j).z) ((reportedEvents nev' d t').2.2.2 j)).1 e =
      (shiftTrajTir (fun n => (t.position n j).z) (fun n => (t.direction n j).z) ((reportedEvents nev d t).2.2.2 j)).1 e := by
    intro j e he
    show selectTirTraj (fun n => (t'.position n j).z) _ e = selectTirTraj (fun n => (t.position n j).z) _ e
    exact tir_prefix _ _ e fun k hk => congrArg V3.z (hpos j k (by omega))
  have hdz : ∀ j e, e < m j →
      (shiftTrajTir (fun n => (t'.position n j).z) (fun n => (t'.direction n j).z) ((reportedEvents nev' d t').2.2.2 j)).2 e =
      (shiftTrajTir (fun n => (t.position n j).z) (fun n => (t.direction n j).z) ((reportedEvents nev d t).2.2.2 j)).2 e := by
    intro j e he
    show selectTirTraj (fun n => (t'.direction n j).z) _ e = selectTirTraj (fun n => (t.direction n j).z) _ e
    exact tir_prefix _ _ e fun k hk => congrArg V3.z (hdir j k (by omega))
  have hdet : calcIndicesDetected (reportedEvents nev' d t').1 (fun (i : Fin (nev' + 2)) j => (t'.position i j).x)
      (fun i j => (t'.position i j).y)
      (fun i j => (shiftTrajTir (fun n => (t'.position n j).z) (fun n => (t'.direction n j).z) ((reportedEvents nev' d t').2.2.2 j)).1 i)
      (fun (i : Fin (nev' + 1)) j => (t'.direction i j).x) (fun i j => (t'.direction i j).y)
      (fun i j => (shiftTrajTir (fun n => (t'.position n j).z) (fun n => (t'.direction n j).z) ((reportedEvents nev' d t').2.2.2 j)).2 i)
      th len dist d.n_sample d.n_medium =
    calcIndicesDetected (reportedEvents nev d t).1 (fun (i : Fin (nev + 2)) j => (t.position i j).x)
      (fun i j => (t.position i j).y)
      (fun i j => (shiftTrajTir (fun n => (t.position n j).z) (fun n => (t.direction n j).z) ((reportedEvents nev d t).2.2.2 j)).1 i)
      (fun (i : Fin (nev + 1)) j => (t.direction i j).x) (fun i j => (t.direction i j).y)
      (fun i j => (shiftTrajTir (fun n => (t.position n j).z) (fun n => (t.direction n j).z) ((reportedEvents nev d t).2.2.2 j)).2 i)
      th len dist d.n_sample d.n_medium := by
    funext j
    unfold calcIndicesDetected
    dsimp only
    have hs : ∀ (A : Fin (nev + 1) → Fin nt → ℝ) (A' : Fin (nev' + 1) → Fin nt → ℝ),
        (∀ j e (h : e < nev + 1) (h' : e < nev' + 1), e < m j → A' ⟨e, h'⟩ j = A ⟨e, h⟩ j) →
        sel A' (reportedEvents nev' d t').1 j = sel A (reportedEvents nev d t).1 j := fun A A' h =>
      congrFun (hsel A A' _ _ (fun j => (hidx j).1) (fun j => (hidx j).2.2.2.2.1) h) j
    have q0 := hs (fun e j => (t.position e.succ j).x) (fun e j => (t'.position e.succ j).x)
      (fun j e _ _ he => congrArg V3.x (hpos j (e + 1) he))
    have q1 := hs (fun e j => (t.position e.succ j).y) (fun e j => (t'.position e.succ j).y)
      (fun j e _ _ he => congrArg V3.y (hpos j (e + 1) he))
    have q2 := hs
      (fun e j => (shiftTrajTir (fun n => (t.position n j).z) (fun n => (t.direction n j).z) ((reportedEvents nev d t).2.2.2 j)).1 e.succ)
      (fun e j => (shiftTrajTir (fun n => (t'.position n j).z) (fun n => (t'.direction n j).z) ((reportedEvents nev' d t').2.2.2 j)).1 e.succ)
      (fun j e _ _ he => hpz j (e + 1) he)
    have q3 := hs (fun e j => (t.direction e j).x) (fun e j => (t'.direction e j).x)
      (fun j e _ _ he => congrArg V3.x (hdir j e he))
    have q4 := hs (fun e j => (t.direction e j).y) (fun e j => (t'.direction e j).y)
      (fun j e _ _ he => congrArg V3.y (hdir j e he))
    have q5 := hs
      (fun e j => (shiftTrajTir (fun n => (t.position n j).z) (fun n => (t.direction n j).z) ((reportedEvents nev d t).2.2.2 j)).2 e)
      (fun e j => (shiftTrajTir (fun n => (t'.position n j).z) (fun n => (t'.direction n j).z) ((reportedEvents nev' d t').2.2.2 j)).2 e)
      (fun j e _ _ he => hdz j e he)
    simp only [q0, q1, q2, q3, q4, q5, (hidx j).1]
  have hk0 : ∀ j, (shiftTrajTir (fun n => (t'.position n j).z) (fun n => (t'.direction n j).z) ((reportedEvents nev' d t').2.2.2 j)).2 0 =
      (shiftTrajTir (fun n => (t.position n j).z) (fun n => (t.direction n j).z) ((reportedEvents nev d t).2.2.2 j)).2 0 := fun j =>
    hdz j 0 (hm j).1
  have hkz : ∀ j e (h : e < nev + 1) (h' : e < nev' + 1), e < m j →
      (fun (e : Fin (nev' + 1)) j => (shiftTrajTir (fun n => (t'.position n j).z) (fun n => (t'.direction n j).z) ((reportedEvents nev' d t').2.2.2 j)).2 e) ⟨e, h'⟩ j =
      (fun (e : Fin (nev + 1)) j => (shiftTrajTir (fun n => (t.position n j).z) (fun n => (t.direction n j).z) ((reportedEvents nev d t).2.2.2 j)).2 e) ⟨e, h⟩ j :=
    fun j e _ _ he => hdz j e he
  have hri : ∀ j, calcIndicesDetected (reportedEvents nev d t).1 (fun (i : Fin (nev + 2)) j => (t.position i j).x)
      (fun i j => (t.position i j).y)
      (fun i j => (shiftTrajTir (fun n => (t.position n j).z) (fun n => (t.direction n j).z) ((reportedEvents nev d t).2.2.2 j)).1 i)
      (fun (i : Fin (nev + 1)) j => (t.direction i j).x) (fun i j => (t.direction i j).y)
      (fun i j => (shiftTrajTir (fun n => (t.position n j).z) (fun n => (t.direction n j).z) ((reportedEvents nev d t).2.2.2 j)).2 i)
      th len dist d.n_sample d.n_medium j = 0 ∨
    calcIndicesDetected (reportedEvents nev d t).1 (fun (i : Fin (nev + 2)) j => (t.position i j).x)
      (fun i j => (t.position i j).y)
      (fun i j => (shiftTrajTir (fun n => (t.position n j).z) (fun n => (t.direction n j).z) ((reportedEvents nev d t).2.2.2 j)).1 i)
      (fun (i : Fin (nev + 1)) j => (t.direction i j).x) (fun i j => (t.direction i j).y)
      (fun i j => (shiftTrajTir (fun n => (t.position n j).z) (fun n => (t.direction n j).z) ((reportedEvents nev d t).2.2.2 j)).2 i)
      th len dist d.n_sample d.n_medium j = m j := by
    intro j
    unfold calcIndicesDetected
    dsimp only
    split
    · exact (hidx j).2.2.2.2.1
    · exact Or.inl rfl
  have hww : ∀ j e (h : e < nev + 1) (h' : e < nev' + 1), e < m j →
      (fun (i : Fin (nev' + 1)) j => (fin (t'.weight i j) : XF)) ⟨e, h'⟩ j = (fun (i : Fin (nev + 1)) j => (fin (t.weight i j) : XF)) ⟨e, h⟩ j :=
    fun j e _ _ he => congrArg fin (hw j e he)
  apply calc_congr
  · show incAngleFilm _ _ (fun j => _) _ = incAngleFilm _ _ (fun j => _) _
    rw [hrot]
    exact congrArg (fun k => incAngleFilm _ _ k t.kz0_rot) (funext hk0)
  · show (fun j => angleFilm (fin _)) = fun j => angleFilm (fin _)
    exact funext fun j => congrArg (fun x => angleFilm (fin x)) (hk0 j)
  · exact funext fun j => congrArg (fun x => angleFilm (fin x)) (congrFun (hsel _ _ _ _ (fun j => congrFun hdet j) hri hkz) j)
  · exact funext fun j => congrArg (fun x => angleFilm (fin x))
      (congrFun (hsel _ _ _ _ (fun j => (hidx j).2.1) (fun j => (hidx j).2.2.2.2.2.1) hkz) j)
  · exact hsel _ _ _ _ (fun j => congrFun hdet j) hri hww
  · exact hsel _ _ _ _ (fun j => (hidx j).2.1) (fun j => (hidx j).2.2.2.2.2.1) hww
  · exact hsel _ _ _ _ (fun j => (hidx j).2.2.1.trans (hidx j).2.2.2.1.symm) (fun j => Or.inl (hidx j).2.2.2.1) hww

private theorem scatter_prefix {n n' : ℕ} (h : n ≤ n') (kn : ℕ → Fin nt → V3) (st ct sp cp : ℕ → Fin nt → ℝ) (i : ℕ)
    (hi : i < n) (j : Fin nt) : scatter n' kn st ct sp cp i j = scatter n kn st ct sp cp i j := by
  obtain ⟨g0, g1, -⟩ := scatter_loop kn st ct sp cp (n - 1)
  obtain ⟨f0, f1, -⟩ := scatter_loop kn st ct sp cp (n' - 1)
  induction i with
  | zero => exact (congrFun f0 j).trans (congrFun g0 j).symm
  | succ i ih =>
    have e1 : scatter n' kn st ct sp cp (i + 1) j = _ := f1 i (by omega) j
    have e2 : scatter n kn st ct sp cp (i + 1) j = _ := g1 i (by omega) j
    have e3 := ih (by omega)
    rw [e1, e2]
    unfold scatter at e3
    rw [e3]

/-- C99 (b).  If no trajectory of a film simulation is stuck, simulating more events with the same random numbers (and more
of them) does not change the result. -/
theorem C99_more_events {a : Init.Args nt} {S : Sampling nt num} {d : DetArgs} (H : FilmRun a S d)
    {nev nev' : ℕ} (hle : nev ≤ nev') {t : Trajs nt} (ht : simulate (nev + 1) a S = .ok t)
    (hstuck : ∀ j, (reportedEvents nev d t).2.2.1 j = 0) : runFilm nev' a S d = runFilm nev a S d := by
  obtain ⟨t', ht', -⟩ := simulate_facts H nev'
  have hrun : runFilm nev a S d = Simulation.calcReflTransFilm nev d t := by simp only [runFilm, ht, bind, Except.bind]
  have hrun' : runFilm nev' a S d = Simulation.calcReflTransFilm nev' d t' := by simp only [runFilm, ht', bind, Except.bind]
  rw [hrun, hrun']
  have hpre : (∀ i j, i < nev + 1 → t'.direction i j = t.direction i j) ∧ (∀ i j, i ≤ nev + 1 → t'.position i j = t.position i j) ∧
      t'.weight = t.weight ∧ t'.kz0_rot = t.kz0_rot ∧ t'.kz0_refl = t.kz0_refl := by
    unfold simulate at ht ht'
    rcases hp : Init.initializeTraj a with e | p
    · rw [hp] at ht; cases ht
    rcases hs : sampleStep nt S.mu_scat S.mu_scat_mie S.fine_roughness S.rand_step S.rand_mie with e | step
    · rcases hang : sampleAngles1 (nev + 1) S.p S.min_angle S.draw_theta S.rand_phi with e | ang
      · rw [hp, hang] at ht; cases ht
      · rw [hp, hang, hs] at ht; cases ht
    have hA : ∀ n (ang : Angles nt), sampleAngles1 n S.p S.min_angle S.draw_theta S.rand_phi = .ok ang →
        ang.sintheta = (mkAngles 0 (fun i j => linspace S.min_angle Real.pi num (S.draw_theta i j)) (fun i j => 2 * Real.pi * S.rand_phi i j)).sintheta ∧
        ang.costheta = (mkAngles 0 (fun i j => linspace S.min_angle Real.pi num (S.draw_theta i j)) (fun i j => 2 * Real.pi * S.rand_phi i j)).costheta ∧
        ang.sinphi = (mkAngles 0 (fun i j => linspace S.min_angle Real.pi num (S.draw_theta i j)) (fun i j => 2 * Real.pi * S.rand_phi i j)).sinphi ∧
        ang.cosphi = (mkAngles 0 (fun i j => linspace S.min_angle Real.pi num (S.draw_theta i j)) (fun i j => 2 * Real.pi * S.rand_phi i j)).cosphi := by
      intro n ang h
      unfold sampleAngles1 at h
      simp only at h
      split at h
      · injection h with h
        subst h
        exact ⟨rfl, rfl, rfl, rfl⟩
      · cases h
    generalize mkAngles 0 (fun i j => linspace S.min_angle Real.pi num (S.draw_theta i j)) (fun i j => 2 * Real.pi * S.rand_phi i j) = A at hA
    rcases hang : sampleAngles1 (nev + 1) S.p S.min_angle S.draw_theta S.rand_phi with e | ang
    · rw [hp, hang] at ht; cases ht
    rcases hang' : sampleAngles1 (nev' + 1) S.p S.min_angle S.draw_theta S.rand_phi with e | ang'
    · rw [hp, hang'] at ht'; cases ht'
    obtain ⟨a1, a2, a3, a4⟩ := hA _ _ hang
    obtain ⟨b1, b2, b3, b4⟩ := hA _ _ hang'
    rw [hp, hang, hs] at ht
    rw [hp, hang', hs] at ht'
    simp only [bind, Except.bind, pure, Except.pure, a1, a2, a3, a4] at ht
    simp only [bind, Except.bind, pure, Except.pure, b1, b2, b3, b4] at ht'
    injection ht with ht
    injection ht' with ht'
    subst ht ht'
    have hk : ∀ i (j : Fin nt), i < nev + 1 → scatter (nev' + 1) (fun i j => valV (p.k0 i j)) A.sintheta A.costheta A.sinphi A.cosphi i j =
        scatter (nev + 1) (fun i j => valV (p.k0 i j)) A.sintheta A.costheta A.sinphi A.cosphi i j := fun i j hi =>
      scatter_prefix (by omega) _ _ _ _ _ i hi j
    refine ⟨hk, ?_, rfl, rfl, rfl⟩
    intro i j hi
    dsimp only [move]
    induction i with
    | zero => rfl
    | succ i ih =>
      rw [cumsum, cumsum, ih (by omega)]
      simp only [displacement, hk i j (by omega)]
  obtain ⟨h1, h2, h3, h4, h5⟩ := hpre
  let m : Fin nt → ℕ := fun j => max ((reportedEvents nev d t).1 j) ((reportedEvents nev d t).2.1 j)
  have hmj : ∀ j, 1 ≤ m j ∧ m j ≤ nev + 1 ∧ ((reportedEvents nev d t).1 j = m j ∨ (reportedEvents nev d t).2.1 j = m j) := by
    intro j
    have o1 := C09_exactly_one_outcome
      (findValidExitsFilm (nev := nev + 1) d.optics.n_tir d.n_medium d.thickness d.z_low
        (fun i j => (t.position i j).z) (fun i j => (t.direction i j).z)).neg
      (findValidExitsFilm (nev := nev + 1) d.optics.n_tir d.n_medium d.thickness d.z_low
        (fun i j => (t.position i j).z) (fun i j => (t.direction i j).z)).pos
      (findValidExitsFilm (nev := nev + 1) d.optics.n_tir d.n_medium d.thickness d.z_low
        (fun i j => (t.position i j).z) (fun i j => (t.direction i j).z)).tir j
    have l1 : (reportedEvents nev d t).1 j ≤ nev + 1 := reflIndices_le _ _ j
    have l2 : (reportedEvents nev d t).2.1 j ≤ nev + 1 := transIndices_le _ _ j
    have hs := hstuck j
    change (reportedEvents nev d t).1 j ≠ 0 ∧ (reportedEvents nev d t).2.1 j = 0 ∧ (reportedEvents nev d t).2.2.1 j = 0 ∨
      (reportedEvents nev d t).1 j = 0 ∧ (reportedEvents nev d t).2.1 j ≠ 0 ∧ (reportedEvents nev d t).2.2.1 j = 0 ∨
      (reportedEvents nev d t).1 j = 0 ∧ (reportedEvents nev d t).2.1 j = 0 ∧ (reportedEvents nev d t).2.2.1 j = nev + 1 at o1
    refine ⟨?_, ?_, ?_⟩
    · simp only [m]; omega
    · simp only [m]; omega
    · simp only [m]; omega
  exact C99_goniometer_after_exit_irrelevant nev nev' d t t' m (fun j => ⟨(hmj j).1, by have := (hmj j).2.1; omega⟩)
    (fun j => (hmj j).2.2) (fun j i hi => by rw [h2 i j (by have := (hmj j).2.1; omega)])
    (fun j i hi => by rw [h1 i j (by have := (hmj j).2.1; omega)]) (fun j i _ => by rw [h3]) h4 h5

/-- Non-vacuity of C99: a photon that goes straight through a film of thickness 10 at its first event; the hypotheses hold
whatever the later rows of the second set contain. -/
example (junk : ℕ → V3) (jw : ℕ → ℝ) :
    let t : Trajs 1 := ⟨fun i _ => ⟨0, 0, 20 * i⟩, fun _ _ => ⟨0, 0, 1⟩, fun _ _ => 1, none, none⟩
    let t' : Trajs 1 := ⟨fun i _ => if i ≤ 1 then ⟨0, 0, 20 * i⟩ else junk i, fun i _ => if i < 1 then ⟨0, 0, 1⟩ else junk i,
      fun i _ => if i < 1 then 1 else jw i, none, none⟩
    (reportedEvents 0 (demoDet none) t).2.1 0 = 1 ∧
      Simulation.calcReflTransFilm 7 (demoDet none) t' = Simulation.calcReflTransFilm 0 (demoDet none) t := by
  intro t t'
  have h0 : zFloor 10 0 0 = 0 := by norm_num [zFloor]
  have h1 : zFloor 10 0 20 = 2 := by norm_num [zFloor]
  have hn : noTirFilm (3 / 2) 1 1 = true := by
    unfold noTirFilm
    rw [fin_div _ (by norm_num), XF.arcsin_of_mem (by norm_num) (by norm_num), XF.cos_fin]
    simp only [fin_lt, decide_eq_true_eq, Real.cos_arcsin]
    rw [abs_one, Real.sqrt_lt' one_pos]
    norm_num
  have hop : (demoDet none).optics.n_tir = 3 / 2 := rfl
  have hev : (reportedEvents 0 (demoDet none) t).2.1 0 = 1 := by
    refine ((C10_first_exit le_rfl _ _ _ (0 : Fin 1)).2.1 1 le_rfl).2 ⟨⟨le_rfl, le_rfl, ⟨0, rfl, ?_⟩, fun k h1 h2 => by omega⟩, ?_⟩
    · rw [hop]
      simp only [findValidExitsFilm, demoDet, t]
      simp only [Fin.succ_zero_eq_one, Fin.castSucc_zero, Fin.val_zero, Fin.val_one]
      simp [h0, h1, hn, posDir]
    · rintro k hk ⟨e, he, hb⟩
      omega
  refine ⟨hev, C99_after_exit_irrelevant 0 7 (demoDet none) rfl t t' (fun _ => 1) (fun _ => ⟨le_rfl, by omega⟩) ?_ ?_ ?_ ?_ rfl rfl⟩
  · intro j; right; rw [Subsingleton.elim j 0]; exact hev
  · intro j i hi; simp [t, t', show i ≤ 1 from hi]
  · intro j i hi; simp [t, t', show i < 1 from hi]
  · intro j i hi; simp [t, t', show i < 1 from hi]

end Verif.Props
