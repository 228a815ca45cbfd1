import Verif.SpecSphere
import Verif.Props.SphereRun
import Verif.Props.Estimator

/-!
# C109: the estimator of reflectance and transmittance of a sphere
-/

namespace Verif.Props
noncomputable section
open Classical XF Verif.Spec Verif.Geometry Verif.Exits Verif.Fresnel Verif.Weights Verif.Restart Verif.SphereRun Verif.Root
open Verif.Geometry (XV)

variable {nev nt num : ℕ}

/-- number of an event as `get_angles` and `select_events` count them: from 1, 0 for none -/
def evNumber {n : ℕ} : Option (Fin n) → ℕ
  | some e => e.val + 1
  | none => 0

theorem firstOutside_iff {R : ℝ} (pos : Fin (nev + 1) → Fin nt → V3) (j : Fin nt) (e : Fin nev) :
    IsFirst nev (OutsideAfter (2 * R) pos j) (e.val + 1) ↔ LeavesBall R ⟨0, 0, R⟩ (fun r => pos r j) e := by
  have hR : 2 * R / 2 = R := by ring
  unfold IsFirst OutsideAfter LeavesBall
  simp only [hR]
  constructor
  · rintro ⟨-, -, ⟨r, hr, h⟩, hmin⟩
    have : r = e.succ := by ext; simp [hr]
    refine ⟨this ▸ h, fun e' he' => ?_⟩
    by_contra hc
    push Not at hc
    exact hmin (e'.val + 1) (by omega) (by have : e'.val < e.val := he'; omega) ⟨e'.succ, by simp, hc⟩
  · rintro ⟨h, hmin⟩
    refine ⟨by omega, e.isLt, ⟨e.succ, by simp, h⟩, ?_⟩
    rintro k h1 h2 ⟨r, hr, hk⟩
    have hlt : k - 1 < nev := by have := e.isLt; omega
    have := hmin ⟨k - 1, hlt⟩ (by show k - 1 < e.val; omega)
    have hr' : (⟨k - 1, hlt⟩ : Fin nev).succ = r := by ext; simp; omega
    rw [hr'] at this
    linarith

/-- what `exit_kz` returns for an event, `none` for NaN -/
def exitKzOf (R ns nm : ℝ) (pos : Fin (nev + 1) → V3) (dir : Fin nev → V3) (e : Fin nev) : XF :=
  exitKz (ofV3 (V3.sub (pos e.castSucc) ⟨0, 0, R⟩)) (ofV3 (V3.sub (pos e.succ) ⟨0, 0, R⟩)) (ofV3 (dir e)) (2 * R) ns nm

/-- `kz` is what `exit_kz` returns at the event at which the photon leaves (NaN: none) -/
def ExitKzIs (R ns nm : ℝ) (pos : Fin (nev + 1) → V3) (dir : Fin nev → V3) (kz : Fin nev → Option ℝ) : Prop :=
  ∀ e, LeavesBall R ⟨0, 0, R⟩ pos e →
    exitKzOf R ns nm pos dir e = match kz e with | some z => fin z | none => nan

theorem ball_numbers {ns nm R : ℝ} {pos : Fin (nev + 2) → Fin nt → V3} {dir : Fin (nev + 1) → Fin nt → V3}
    {kz : Fin nt → Fin (nev + 1) → Option ℝ} {fate : Fin nt → Fate (nev + 1)}
    (hkz : ∀ j, ExitKzIs R ns nm (fun r => pos r j) (fun e => dir e j) (kz j))
    (hf : ∀ j, IsBallFate R ⟨0, 0, R⟩ (fun r => pos r j) (kz j) (fate j)) :
    let X := sphereTables ns nm (2 * R) pos dir
    let I := findEventIndices X.neg X.pos X.tir
    (∀ j, I.1 j = evNumber (fate j).reflEvent) ∧
    (∀ j, I.2.1 j = evNumber (fate j).transEvent) ∧
    (∀ j, I.2.2.1 j = evNumber (fate j).lastEvent) := by
  intro X I
  have hR : 2 * R / 2 = R := by ring
  have key : ∀ j, (I.1 j = evNumber (fate j).reflEvent) ∧
      (I.2.1 j = evNumber (fate j).transEvent) ∧
      (I.2.2.1 j = evNumber (fate j).lastEvent) := by
    intro j
    have hfj := hf j
    cases hfa : fate j with
    | reflected e =>
      rw [hfa] at hfj
      obtain ⟨hl, z, hz, hneg⟩ := hfj
      have h := C84_sphere_first_exit ns nm (2 * R) pos dir j e ((firstOutside_iff pos j e).2 hl)
      simp only [hR] at h
      have hk := hkz j e hl
      rw [hz] at hk
      unfold exitKzOf at hk
      rw [hk] at h
      obtain ⟨h1, h2, h3, -⟩ := h.1 (by rw [fin_lt]; exact hneg)
      exact ⟨h1, h2, h3⟩
    | transmitted e =>
      rw [hfa] at hfj
      obtain ⟨hl, z, hz, hpos⟩ := hfj
      have h := C84_sphere_first_exit ns nm (2 * R) pos dir j e ((firstOutside_iff pos j e).2 hl)
      simp only [hR] at h
      have hk := hkz j e hl
      rw [hz] at hk
      unfold exitKzOf at hk
      rw [hk] at h
      obtain ⟨h1, h2, h3, -⟩ := h.2.1 (by rw [fin_lt]; exact hpos)
      exact ⟨h1, h2, h3⟩
    | trapped =>
      rw [hfa] at hfj
      by_cases hex : ∃ e, LeavesBall R ⟨0, 0, R⟩ (fun r => pos r j) e
      · obtain ⟨e, hl⟩ := hex
        have h := C84_sphere_first_exit ns nm (2 * R) pos dir j e ((firstOutside_iff pos j e).2 hl)
        simp only [hR] at h
        have hk := hkz j e hl
        unfold exitKzOf at hk
        rcases hfj e hl with hz | hz
        · rw [hz] at hk
          rw [hk] at h
          obtain ⟨h1, h2, h3, -⟩ := h.2.2.1 rfl
          exact ⟨h1, h2, h3⟩
        · rw [hz] at hk
          rw [hk] at h
          obtain ⟨h1, h2, h3, -⟩ := h.2.2.2 rfl
          exact ⟨h1, h2, h3⟩
      · push Not at hex
        rcases sphere_cases ns nm (2 * R) pos dir j with ⟨h1, h2, h3, -⟩ | ⟨e, he, -⟩
        · exact ⟨h1, h2, h3⟩
        · exact absurd ((firstOutside_iff pos j e).1 he) (hex e)
  exact ⟨fun j => (key j).1, fun j => (key j).2.1, fun j => (key j).2.2⟩

theorem seen_same {n limit θ : ℝ} (hn : 0 < n) (h0 : 0 ≤ θ) (h1 : θ ≤ Real.pi / 2) : SeenWithin n n limit θ ↔ θ ≤ limit := by
  unfold SeenWithin Snell
  constructor
  · rintro ⟨φ, ⟨h3, h4⟩, h5, h6⟩
    have h5' : Real.sin θ = Real.sin φ := mul_left_cancel₀ hn.ne' h5
    have := congrArg Real.arcsin h5'
    rw [Real.arcsin_sin h3 h4, Real.arcsin_sin (by linarith [Real.pi_pos]) h1] at this
    rw [this]; exact h6
  · intro h
    exact ⟨_, ⟨by linarith [Real.pi_pos], h1⟩, rfl, h⟩

/-- Bundles of photons in a sphere of radius `R` that C109 speaks of: all start on the surface, in directions that point
inwards; a photon that leaves takes straight steps of positive length (`SphereExit`), crossing the surface at `q`; the
weights are numbers. -/
structure BallBundle (R : ℝ) (t : SphTrajs nt) (nev : ℕ) (w : Fin nev → Fin nt → ℝ) (q : Fin nt → V3) : Prop where
  start : ∀ j, (V3.sub (t.position 0 j) ⟨0, 0, R⟩).normSq = R * R
  unit : ∀ j, (t.direction 0 j).normSq = 1
  inward : ∀ j, 0 ≤ V3.dot (V3.smul (-1 / R) (V3.sub (t.position 0 j) ⟨0, 0, R⟩)) (t.direction 0 j)
  leave : ∀ j (e : Fin nev), LeavesBall R ⟨0, 0, R⟩ (fun r : Fin (nev + 1) => t.position r j) e →
    SphereExit R (V3.sub (t.position e j) ⟨0, 0, R⟩) (V3.sub (t.position (e + 1) j) ⟨0, 0, R⟩) (t.direction e j) (q j)
  weight : ∀ (e : Fin nev) j, t.weight e j = fin (w e j)

theorem entry_angle {R : ℝ} (hR : 0 < R) {p k : V3} (hp : p.normSq = R * R) (hk : k.normSq = 1) :
    (getAnglesSphereInit (ofV3 p) (ofV3 k)).1 = fin (Real.arccos (V3.dot (V3.smul (-1 / R) p) k)) := by
  have hu : (V3.smul (-1 / R) p).normSq = 1 := by rw [smul_normSq, hp]; field_simp
  have hne : V3.smul (-1) p ≠ V3.zero := by
    intro hz
    have : (V3.smul (-1) p).normSq = 0 := by rw [hz]; simp [V3.normSq, V3.dot, V3.zero]
    rw [smul_normSq, hp] at this
    nlinarith
  have hnorm : (V3.smul (-1) p).norm = R := norm_eq_of_normSq hR.le (by rw [smul_normSq, hp]; ring)
  have hn := normalizeCol_fin hne
  rw [hnorm] at hn
  have e1 : V3.smul (1 / R) (V3.smul (-1) p) = V3.smul (-1 / R) p := by
    ext <;> simp only [V3.smul] <;> ring
  rw [e1] at hn
  have e0 : (⟨-(ofV3 p).x, -(ofV3 p).y, -(ofV3 p).z⟩ : XV) = ofV3 (V3.smul (-1) p) := by
    simp only [ofV3, finV, V3.smul, fin_neg]
    congr 2 <;> ring
  have hd := dot_mem hu hk
  unfold getAnglesSphereInit
  rw [e0, hn]
  simp only
  have e2 : (ofV3 (V3.smul (-1 / R) p)).x * (ofV3 k).x + (ofV3 (V3.smul (-1 / R) p)).y * (ofV3 k).y +
      (ofV3 (V3.smul (-1 / R) p)).z * (ofV3 k).z = fin (V3.dot (V3.smul (-1 / R) p) k) := by
    simp [ofV3, finV, V3.dot]
  rw [e2, nanToNum_fin, arccos_of_mem hd.1 hd.2]

theorem centred_eq (R : ℝ) (p : V3) : centred (2 * R) p = V3.sub p ⟨0, 0, R⟩ := by
  have hR : 2 * R / 2 = R := by ring
  simp [centred, V3.sub, hR]

/-- angle at which selected photons leave -/
theorem exitAngle_ball {R : ℝ} (hR : 0 < R) {t : SphTrajs nt} {w : Fin nev → Fin nt → ℝ} {q : Fin nt → V3}
    (H : BallBundle R t nev w q) {idx : Fin nt → ℕ} {j : Fin nt} {ev : Option (Fin nev)}
    (hidx : idx j = evNumber ev)
    (hl : ∀ e, ev = some e → LeavesBall R ⟨0, 0, R⟩ (fun r : Fin (nev + 1) => t.position r j) e) :
    exitAngle nev (2 * R) t.position idx j =
      fin (Real.arccos (valueAt ev fun e => V3.dot (V3.smul (1 / R) (q j)) (t.direction e j))) := by
  have hR2 : 2 * R / 2 = R := by ring
  unfold exitAngle
  cases ev with
  | none =>
    have hz : ∀ a : Fin nev → Fin nt → V3, selV a idx j = V3.zero := fun a => by
      simp only [selV, sel_zero _ idx j hidx]; rfl
    simp only [hz, hR2, valueAt, Real.arccos_zero]
    exact congrArg Prod.fst (C27_sphere_no_event R hR)
  | some e =>
    simp only [selV_eq _ idx j e hidx, centred_eq, hR2, valueAt]
    have h := (H.leave j e (hl e rfl)).angles
    have := congrArg Prod.fst h
    simpa [rowsP, ofV3] using this

/-- what one call of `calc_refl_trans` derives from the photons of a ball -/
theorem ball_level {R : ℝ} (hR : 0 < R) {o : Optics} (ho : OpticsOK o) (hns : 0 < o.n_sample)
    {t : SphTrajs nt}
    {w : Fin (nev + 1) → Fin nt → ℝ} {q : Fin nt → V3} (H : BallBundle R t (nev + 1) w q)
    {eR eT eS : Fin nt → Option (Fin (nev + 1))}
    (hri : ∀ j, (sphereEvents (nev + 1) o (2 * R) t).1 j = evNumber (eR j))
    (hti : ∀ j, (sphereEvents (nev + 1) o (2 * R) t).2.1 j = evNumber (eT j))
    (hsi : ∀ j, (sphereEvents (nev + 1) o (2 * R) t).2.2.1 j = evNumber (eS j))
    (hR' : ∀ j e, eR j = some e → LeavesBall R ⟨0, 0, R⟩ (fun r : Fin (nev + 2) => t.position r j) e)
    (hT' : ∀ j e, eT j = some e → LeavesBall R ⟨0, 0, R⟩ (fun r : Fin (nev + 2) => t.position r j) e) :
    let p := ballPhotons o.medium R (fun j => V3.sub (t.position 0 j) ⟨0, 0, R⟩) (t.direction 0)
      (fun (e : Fin (nev + 1)) j => t.direction e j) w q eR eT eS
    ∃ (l : Level nt) (c : RIn nt) (ir : Fin nt → ℝ),
      level o (sphereGeometry (nev + 1) o (2 * R) t) none false (fun (e : Fin (nev + 1)) j => t.weight e j) = .ok l ∧
      LevelFin l c o.n_sample o.n_medium o.detection_angle false ir ∧
      (∀ j, c.r j = (p j).outR) ∧ (∀ j, c.t j = (p j).outT) ∧ (∀ j, c.s j = (p j).trapped) ∧ (∀ j, c.pr j = (p j).escR) ∧ (∀ j, c.pt j = (p j).escT) ∧
      (∀ j, c.dr o.n_sample o.n_medium o.detection_angle j = if (p j).seenR then (p j).outR * (p j).escR else 0) ∧
      (∀ j, c.dt o.n_sample o.n_medium o.detection_angle j = if (p j).seenT then (p j).outT * (p j).escT else 0) ∧
      (∀ j, ir j = if (p j).seenInc then 1 - (p j).enter else 0) := by
  intro p
  have hD : 0 < 2 * R := by linarith
  have hR2 : 2 * R / 2 = R := by ring
  set g := sphereGeometry (nev + 1) o (2 * R) t with hg
  -- angles
  have hstart : ∀ j, (V3.sub (t.position 0 j) ⟨0, 0, 2 * R / 2⟩).normSq ≤ (2 * R / 2) * (2 * R / 2) := fun j => by
    rw [hR2]; exact (H.start j).le
  have hexit : ∀ (idx : Fin nt → ℕ) (ev : Fin nt → Option (Fin (nev + 1))),
      (∀ j, idx j = evNumber (ev j)) →
      (∀ j e, ev j = some e → LeavesBall R ⟨0, 0, R⟩ (fun r : Fin (nev + 2) => t.position r j) e) → ∀ j,
      exitAngle (nev + 1) (2 * R) t.position idx j =
        fin (Real.arccos (valueAt (ev j) fun e => V3.dot (V3.smul (1 / R) (q j)) (t.direction e j))) ∧
      0 ≤ Real.arccos (valueAt (ev j) fun e => V3.dot (V3.smul (1 / R) (q j)) (t.direction e j)) ∧
      Real.arccos (valueAt (ev j) fun e => V3.dot (V3.smul (1 / R) (q j)) (t.direction e j)) ≤ Real.pi / 2 := by
    intro idx ev hidx hl j
    have h1 := exitAngle_ball hR H (idx := idx) (hidx j) (hl j)
    have h2 := exitAngle_mem (nev := nev + 1) hD (pos := t.position) (idx := idx) (j := j) (hstart j) (by
      cases hev : ev j with
      | none => left; have := hidx j; rwa [hev] at this
      | some e =>
        right
        refine ⟨e, (firstOutside_iff (rowsP (nev + 1) t.position) j e).2 (hl j e hev), ?_⟩
        have := hidx j; rwa [hev] at this)
    obtain ⟨θ, h3, h4, h5⟩ := h2
    rw [h1, fin_inj] at h3
    rw [h3]
    exact ⟨by rw [h1, h3], h4, h5⟩
  have hexR := hexit g.ri eR hri hR'
  have hexT := hexit g.ti eT hti hT'
  have hent : ∀ j, g.thInc j = fin (Real.arccos (V3.dot (V3.smul (-1 / R) (V3.sub (t.position 0 j) ⟨0, 0, R⟩)) (t.direction 0 j))) := by
    intro j
    show entryAngle (2 * R) t j = _
    unfold entryAngle
    simp only [centred_eq]
    exact entry_angle hR (H.start j) (H.unit j)
  have hent01 : ∀ j, 0 ≤ Real.arccos (V3.dot (V3.smul (-1 / R) (V3.sub (t.position 0 j) ⟨0, 0, R⟩)) (t.direction 0 j)) ∧
      Real.arccos (V3.dot (V3.smul (-1 / R) (V3.sub (t.position 0 j) ⟨0, 0, R⟩)) (t.direction 0 j)) ≤ Real.pi / 2 :=
    fun j => ⟨Real.arccos_nonneg _, Real.arccos_le_pi_div_two.2 (H.inward j)⟩
  obtain ⟨θin, hθin⟩ : ∃ θ : Fin nt → ℝ, θ = fun j =>
    Real.arccos (V3.dot (V3.smul (-1 / R) (V3.sub (t.position 0 j) ⟨0, 0, R⟩)) (t.direction 0 j)) := ⟨_, rfl⟩
  have hθj : ∀ j, Real.arccos (V3.dot (V3.smul (-1 / R) (V3.sub (t.position 0 j) ⟨0, 0, R⟩)) (t.direction 0 j)) = θin j :=
    fun j => by rw [hθin]
  simp only [hθj] at hent hent01
  set i : Fin nt → ℝ := fun j => passFrac o.n_medium o.n_front o.n_tir (θin j) with hi
  have hinc : incPassFrac false g.thInc o.n_medium o.n_front o.n_tir = .ok (fun j => fin (i j)) := by
    simp only [incPassFrac, Bool.false_eq_true, if_false, funext hent]
    exact fresnelPassFrac_fin _ _ ho.medium ho.front hent01
  set ir : Fin nt → ℝ := fun j => if θin j ≤ o.detection_angle then 1 - i j else 0 with hirdef
  have hir : IncReflIs o g none i ir := by
    intro j
    have e : g.thIncDet = fun j => fin (θin j) := funext hent
    simp only [e, detectCorrect_fin _ _ ho.medium.ne']
    rw [seen_dcR ho.medium ho.medium (hent01 j).1 (hent01 j).2]
    simp only [seen_same ho.medium (hent01 j).1 (hent01 j).2, hirdef]
  have hw' : (fun (e : Fin (nev + 1)) j => t.weight e j) = fun (e : Fin (nev + 1)) j => (fin (w e j) : XF) := by
    funext e j; exact H.weight e j
  set θr : Fin nt → ℝ := fun j => Real.arccos (valueAt (eR j) fun e => V3.dot (V3.smul (1 / R) (q j)) (t.direction e j)) with hθr
  set θt : Fin nt → ℝ := fun j => Real.arccos (valueAt (eT j) fun e => V3.dot (V3.smul (1 / R) (q j)) (t.direction e j)) with hθt
  obtain ⟨l, hl, hL⟩ := level_fin o g none false w i θr θt ir ho.tir ho.medium ho.front ho.back hinc
    (funext fun j => (hexR j).1) (funext fun j => (hexT j).1) (fun j => (hexR j).2) (fun j => (hexT j).2) hir
  set c := shadow o g w i θr θt with hc
  -- identification with the specification
  have hsel : ∀ (a : Fin (nev + 1) → Fin nt → ℝ) (idx : Fin nt → ℕ) (ev : Fin nt → Option (Fin (nev + 1))),
      (∀ j, idx j = evNumber (ev j)) → ∀ j, sel a idx j = valueAt (ev j) fun e => a e j := by
    intro a idx ev h j
    have := h j
    cases hf : ev j with
    | some e => rw [hf] at this; rw [sel_last a idx j e this]; rfl
    | none => rw [hf] at this; rw [sel_zero a idx j this]; rfl
  have hentp : ∀ j, i j = (p j).enter := fun j => by
    show passFrac _ _ _ _ = platePass o.n_medium o.n_front o.n_tir _
    rw [platePass_eq _ ho.medium ho.tir ho.front (hent01 j).1 (hent01 j).2, hθj]
  have hr : ∀ j, c.r j = (p j).outR := fun j => by
    show i j * sel w g.ri j = _
    rw [hsel w g.ri eR hri, hentp]; rfl
  have ht : ∀ j, c.t j = (p j).outT := fun j => by
    show i j * sel w g.ti j = _
    rw [hsel w g.ti eT hti, hentp]; rfl
  have hs : ∀ j, c.s j = (p j).trapped := fun j => by
    show i j * sel w g.si j = _
    rw [hsel w g.si eS hsi, hentp]; rfl
  have hpr : ∀ j, c.pr j = (p j).escR := fun j => by
    show passFrac o.n_tir o.n_front o.n_medium (θr j) = _
    rw [platePass_eq _ ho.tir ho.medium ho.front (hexR j).2.1 (hexR j).2.2]; rfl
  have hpt : ∀ j, c.pt j = (p j).escT := fun j => by
    show passFrac o.n_tir o.n_back o.n_medium (θt j) = _
    rw [platePass_eq _ ho.tir ho.medium ho.back (hexT j).2.1 (hexT j).2.2]; rfl
  have hPr : ∀ j, c.Pr j = (p j).outR * (p j).escR := fun j => by unfold RIn.Pr; rw [hr, hpr]
  have hPt : ∀ j, c.Pt j = (p j).outT * (p j).escT := fun j => by unfold RIn.Pt; rw [ht, hpt]
  have hdr : ∀ j, c.dr o.n_sample o.n_medium o.detection_angle j =
      if (p j).seenR then (p j).outR * (p j).escR else 0 := fun j => by
    unfold RIn.dr
    rw [hPr]
    show dcR _ _ _ (θr j) _ = _
    rw [seen_dcR ho.medium hns (hexR j).2.1 (hexR j).2.2]; rfl
  have hdt : ∀ j, c.dt o.n_sample o.n_medium o.detection_angle j =
      if (p j).seenT then (p j).outT * (p j).escT else 0 := fun j => by
    unfold RIn.dt
    rw [hPt]
    show dcR _ _ _ (θt j) _ = _
    rw [seen_dcR ho.medium hns (hexT j).2.1 (hexT j).2.2]; rfl
  have hirp : ∀ j, ir j = if (p j).seenInc then 1 - (p j).enter else 0 := fun j => by
    rw [← hentp]
    show (if θin j ≤ o.detection_angle then 1 - i j else 0) = _
    rw [← hθj]; rfl
  exact ⟨l, c, ir, by rw [hw']; exact hl, hL, hr, ht, hs, hpr, hpt, hdr, hdt, hirp⟩

theorem sphere_estimator_core (hnt : 0 < nt) {R : ℝ} (hR : 0 < R) {o on : Optics} (ho : OpticsOK o) (hns : 0 < o.n_sample)
    (m : Medium num) (draws : ℕ → Draws nt num) (max_stuck : ℝ) (maxDepth : ℕ) {t : SphTrajs nt}
    {w : Fin (nev + 1) → Fin nt → ℝ} {q : Fin nt → V3} (H : BallBundle R t (nev + 1) w q)
    {eR eT eS : Fin nt → Option (Fin (nev + 1))}
    (hri : ∀ j, (sphereEvents (nev + 1) o (2 * R) t).1 j = evNumber (eR j))
    (hti : ∀ j, (sphereEvents (nev + 1) o (2 * R) t).2.1 j = evNumber (eT j))
    (hsi : ∀ j, (sphereEvents (nev + 1) o (2 * R) t).2.2.1 j = evNumber (eS j))
    (hR' : ∀ j e, eR j = some e → LeavesBall R ⟨0, 0, R⟩ (fun r : Fin (nev + 2) => t.position r j) e)
    (hT' : ∀ j e, eT j = some e → LeavesBall R ⟨0, 0, R⟩ (fun r : Fin (nev + 2) => t.position r j) e) :
    let p := ballPhotons o.medium R (fun j => V3.sub (t.position 0 j) ⟨0, 0, R⟩) (t.direction 0)
      (fun (e : Fin (nev + 1)) j => t.direction e j) w q eR eT eS
    ∃ rt, calcSphere (2 * R) m draws false max_stuck on o maxDepth 0 (nev + 1) t = .ok rt ∧
      (∀ j, rt.reflPer j = fin (Photon.reflSphere p j)) ∧ (∀ j, rt.transPer j = fin (Photon.transSphere p j)) ∧
      rt.R = fin (∑ j, Photon.reflSphere p j) ∧ rt.T = fin (∑ j, Photon.transSphere p j) := by
  intro p
  have hn0 : (nt : ℝ) ≠ 0 := by exact_mod_cast hnt.ne'
  obtain ⟨l, c, ir, hl, hL, hr, ht, hs, hpr, hpt, hdr, hdt, hirp⟩ := ball_level hR ho hns H hri hti hsi hR' hT'
  have hcalc : calcSphere (2 * R) m draws false max_stuck on o maxDepth 0 (nev + 1) t =
      .ok (distribute l.exit l.det l.out.stuck .sphere false) := by
    unfold calcSphere
    simp only [lt_self_iff_false, decide_false, hl, bind, Except.bind, Bool.false_eq_true, false_and, dite_false, pure, Except.pure]
  refine ⟨_, hcalc, ?_⟩
  have hPr : ∀ j, c.Pr j = (p j).outR * (p j).escR := fun j => by unfold RIn.Pr; rw [hr, hpr]
  have hPt : ∀ j, c.Pt j = (p j).outT * (p j).escT := fun j => by unfold RIn.Pt; rw [ht, hpt]
  have hsPr : ∑ j, c.Pr j = Photon.escapedR p := Finset.sum_congr rfl fun j _ => hPr j
  have hsPt : ∑ j, c.Pt j = Photon.escapedT p := Finset.sum_congr rfl fun j _ => hPt j
  have hfr : ∀ j, c.fr j = (p j).outR * (1 - (p j).escR) := fun j => by unfold RIn.fr; rw [hPr, hr]; ring
  have hft : ∀ j, c.ft j = (p j).outT * (1 - (p j).escT) := fun j => by unfold RIn.ft; rw [hPt, ht]; ring
  have heps : EPS = 1 / 10 ^ 9 := rfl
  have hrdf : c.rdf o.n_sample o.n_medium o.detection_angle = Photon.shareR p := by
    unfold RIn.rdf Photon.shareR
    rw [Finset.sum_congr rfl fun j _ => hdr j, hsPr, heps]
  have htdf : c.tdf o.n_sample o.n_medium o.detection_angle = Photon.shareT p := by
    unfold RIn.tdf Photon.shareT
    rw [Finset.sum_congr rfl fun j _ => hdt j, hsPt, heps]
  have e1 : ∀ j, (distribute l.exit l.det l.out.stuck .sphere false).reflPer j = fin (Photon.reflSphere p j) := by
    intro j
    simp only [distribute, hL.reflFresnel, hL.transFresnel, hL.stuck, hL.refl, hL.incRefl, hL.rdf, Bool.false_eq_true, if_false,
      fin_add, fin_mul, fin_div _ hn0]
    rw [fin_inj, hdr, hrdf, hirp, hfr, hft, hs]
    unfold Photon.reflSphere Photon.unknown
    ring
  have e2 : ∀ j, (distribute l.exit l.det l.out.stuck .sphere false).transPer j = fin (Photon.transSphere p j) := by
    intro j
    simp only [distribute, hL.reflFresnel, hL.transFresnel, hL.stuck, hL.trans, hL.tdf, fin_add, fin_mul, fin_div _ hn0]
    rw [fin_inj, hdt, htdf, hfr, hft, hs]
    unfold Photon.transSphere Photon.unknown
    ring
  refine ⟨e1, e2, ?_, ?_⟩
  · show ∑ j, (distribute l.exit l.det l.out.stuck .sphere false).reflPer j = _
    rw [Finset.sum_congr rfl fun j _ => e1 j, sum_fin]
  · show ∑ j, (distribute l.exit l.det l.out.stuck .sphere false).transPer j = _
    rw [Finset.sum_congr rfl fun j _ => e2 j, sum_fin]

/-- C109.  `calc_refl_trans` for a sphere, without re-running the light sent back at the surface, computes the documented
estimator (Verif/SpecSphere.lean): photon `j` enters with the fraction of light that the front plate passes at the angle
between its direction and the inward normal where it enters (its direction inside: see C70), leaves at the first event that
ends outside and is then reflected or transmitted by the sign of what `exit_kz` returns there (see C24; neither if that is NaN
or 0), escapes with the fraction passed at the angle at which its step crosses the surface, and is seen if it leaves within
the detection angle; light sent back and trapped light is shared equally between reflectance and transmittance. -/
theorem C109_sphere_estimator (hnt : 0 < nt) {R : ℝ} (hR : 0 < R) {o : Optics} (on : Optics) (ho : OpticsOK o)
    (hns : 0 < o.n_sample) (m : Medium num) (draws : ℕ → Draws nt num) (max_stuck : ℝ) (maxDepth : ℕ) {t : SphTrajs nt}
    {w : Fin (nev + 1) → Fin nt → ℝ} {q : Fin nt → V3} (H : BallBundle R t (nev + 1) w q)
    {kz : Fin nt → Fin (nev + 1) → Option ℝ}
    (hkz : ∀ j, ExitKzIs R o.n_tir o.n_medium (fun r : Fin (nev + 2) => t.position r j) (fun e => t.direction e j) (kz j))
    {fate : Fin nt → Fate (nev + 1)}
    (hfate : ∀ j, IsBallFate R ⟨0, 0, R⟩ (fun r : Fin (nev + 2) => t.position r j) (kz j) (fate j)) :
    let p := ballPhotons o.medium R (fun j => V3.sub (t.position 0 j) ⟨0, 0, R⟩) (t.direction 0)
      (fun (e : Fin (nev + 1)) j => t.direction e j) w q (fun j => (fate j).reflEvent) (fun j => (fate j).transEvent)
      (fun j => (fate j).lastEvent)
    ∃ rt, calcSphere (2 * R) m draws false max_stuck on o maxDepth 0 (nev + 1) t = .ok rt ∧
      (∀ j, rt.reflPer j = fin (Photon.reflSphere p j)) ∧ (∀ j, rt.transPer j = fin (Photon.transSphere p j)) ∧
      rt.R = fin (∑ j, Photon.reflSphere p j) ∧ rt.T = fin (∑ j, Photon.transSphere p j) := by
  intro p
  obtain ⟨h1, h2, h3⟩ := ball_numbers (pos := rowsP (nev + 1) t.position) (dir := rowsD (nev + 1) t.direction)
    (ns := o.n_tir) (nm := o.n_medium) (R := R) (kz := kz) (fate := fate) hkz hfate
  refine sphere_estimator_core hnt hR ho hns m draws max_stuck maxDepth H h1 h2 h3 ?_ ?_
  · intro j e he
    have := hfate j
    cases hf : fate j <;> rw [hf] at he this <;> simp only [Fate.reflEvent, Option.some.injEq] at he
    · exact he ▸ this.1
    · exact (nomatch he)
    · exact (nomatch he)
  · intro j e he
    have := hfate j
    cases hf : fate j <;> rw [hf] at he this <;> simp only [Fate.transEvent, Option.some.injEq] at he
    · exact (nomatch he)
    · exact he ▸ this.1
    · exact (nomatch he)

/-- C109 for a sphere whose surface has the index of its surroundings: light leaves in the direction of its step, so that a
photon is reflected or transmitted by the sign of the z component of its direction at the event at which it leaves. -/
theorem C109_matched_sphere (hnt : 0 < nt) {R : ℝ} (hR : 0 < R) {o : Optics} (on : Optics) (ho : OpticsOK o)
    (hns : 0 < o.n_sample) (hmatch : o.n_tir = o.n_medium)
    (m : Medium num) (draws : ℕ → Draws nt num) (max_stuck : ℝ) (maxDepth : ℕ) {t : SphTrajs nt}
    {w : Fin (nev + 1) → Fin nt → ℝ} {q : Fin nt → V3} (H : BallBundle R t (nev + 1) w q)
    {fate : Fin nt → Fate (nev + 1)}
    (hfate : ∀ j, IsBallFate R ⟨0, 0, R⟩ (fun r : Fin (nev + 2) => t.position r j) (fun e => some (t.direction e j).z) (fate j)) :
    let p := ballPhotons o.medium R (fun j => V3.sub (t.position 0 j) ⟨0, 0, R⟩) (t.direction 0)
      (fun (e : Fin (nev + 1)) j => t.direction e j) w q (fun j => (fate j).reflEvent) (fun j => (fate j).transEvent)
      (fun j => (fate j).lastEvent)
    ∃ rt, calcSphere (2 * R) m draws false max_stuck on o maxDepth 0 (nev + 1) t = .ok rt ∧
      (∀ j, rt.reflPer j = fin (Photon.reflSphere p j)) ∧ (∀ j, rt.transPer j = fin (Photon.transSphere p j)) ∧
      rt.R = fin (∑ j, Photon.reflSphere p j) ∧ rt.T = fin (∑ j, Photon.transSphere p j) := by
  refine C109_sphere_estimator hnt hR on ho hns m draws max_stuck maxDepth H (kz := fun j e => some (t.direction e j).z) ?_ hfate
  intro j e hl
  exact (C24_sphere_straight_partial (H.leave j e hl) ho.tir ho.medium (Or.inl hmatch)).1

/-- C109.  A photon in a sphere has exactly one fate. -/
theorem C109_one_fate {R : ℝ} (c : V3) (pos : Fin (nev + 1) → V3) (kz : Fin nev → Option ℝ) :
    ∃! f, IsBallFate R c pos kz f := by
  have huniq : ∀ e e', LeavesBall R c pos e → LeavesBall R c pos e' → e = e' := by
    intro e e' h h'
    by_contra hne
    rcases lt_or_gt_of_ne hne with hlt | hlt
    · exact absurd (h'.2 e hlt) (not_le.2 h.1)
    · exact absurd (h.2 e' hlt) (not_le.2 h'.1)
  by_cases hex : ∃ e, LeavesBall R c pos e
  · obtain ⟨e, he⟩ := hex
    rcases hk : kz e with _ | z
    · refine ⟨.trapped, fun e' h' => Or.inl (by rw [← huniq e e' he h', hk]), ?_⟩
      rintro (e' | e' | _) hf
      · obtain ⟨z, hz, -⟩ := hf.2
        rw [← huniq e e' he hf.1, hk] at hz; exact (nomatch hz)
      · obtain ⟨z, hz, -⟩ := hf.2
        rw [← huniq e e' he hf.1, hk] at hz; exact (nomatch hz)
      · rfl
    · rcases lt_trichotomy z 0 with hz | hz | hz
      · refine ⟨.reflected e, ⟨he, z, hk, hz⟩, ?_⟩
        rintro (e' | e' | _) hf
        · rw [huniq e e' he hf.1]
        · obtain ⟨y, hy, hy0⟩ := hf.2
          rw [← huniq e e' he hf.1, hk, Option.some.injEq] at hy
          linarith
        · rcases hf e he with h | h <;> rw [hk] at h
          · exact (nomatch h)
          · rw [Option.some.injEq] at h; linarith
      · refine ⟨.trapped, fun e' h' => Or.inr (by rw [← huniq e e' he h', hk, hz]), ?_⟩
        rintro (e' | e' | _) hf
        · obtain ⟨y, hy, hy0⟩ := hf.2
          rw [← huniq e e' he hf.1, hk, Option.some.injEq] at hy
          linarith
        · obtain ⟨y, hy, hy0⟩ := hf.2
          rw [← huniq e e' he hf.1, hk, Option.some.injEq] at hy
          linarith
        · rfl
      · refine ⟨.transmitted e, ⟨he, z, hk, hz⟩, ?_⟩
        rintro (e' | e' | _) hf
        · obtain ⟨y, hy, hy0⟩ := hf.2
          rw [← huniq e e' he hf.1, hk, Option.some.injEq] at hy
          linarith
        · rw [huniq e e' he hf.1]
        · rcases hf e he with h | h <;> rw [hk] at h
          · exact (nomatch h)
          · rw [Option.some.injEq] at h; linarith
  · push Not at hex
    refine ⟨.trapped, fun e h => absurd h (hex e), ?_⟩
    rintro (e' | e' | _) hf
    · exact absurd hf.1 (hex e')
    · exact absurd hf.1 (hex e')
    · rfl

/-- Non-vacuity of C109: a photon through a sphere of radius 1 (index 3/2 in air, below) along its axis; it is transmitted at its
first event, with half of its light absorbed. -/
theorem demo_ball : BallBundle 1 ⟨fun r (_ : Fin 1) => ⟨0, 0, 3 * r⟩, fun _ _ => ⟨0, 0, 1⟩, fun _ _ => fin (1 / 2)⟩ 1
    (fun _ _ => 1 / 2) (fun _ => ⟨0, 0, 1⟩) where
  start := fun j => by norm_num [V3.sub, V3.normSq, V3.dot]
  unit := fun j => by norm_num [V3.normSq, V3.dot]
  inward := fun j => by norm_num [V3.sub, V3.smul, V3.dot]
  leave := by
    intro j e _
    have he : e = 0 := Subsingleton.elim _ _
    subst he
    refine ⟨one_pos, by norm_num [V3.normSq, V3.dot, V3.sub], by norm_num [V3.normSq, V3.dot, V3.sub], ?_,
      by norm_num [V3.normSq, V3.dot], ⟨3, by norm_num, ?_⟩, ⟨2, by norm_num, ?_⟩, by norm_num [V3.normSq, V3.dot]⟩
    · norm_num [Bounded, V3.sub, abs_of_pos]
    · ext <;> norm_num [V3.sub, V3.smul]
    · ext <;> norm_num [V3.add, V3.sub, V3.smul]
  weight := fun e j => rfl

example : ExitKzIs 1 (3 / 2) 1 (fun r : Fin 2 => (⟨0, 0, 3 * (r.val : ℝ)⟩ : V3)) (fun _ => ⟨0, 0, 1⟩) (fun _ => some 1) ∧
    IsBallFate 1 ⟨0, 0, 1⟩ (fun r : Fin 2 => (⟨0, 0, 3 * (r.val : ℝ)⟩ : V3)) (fun _ => some 1) (.transmitted 0) := by
  have hl : LeavesBall 1 ⟨0, 0, 1⟩ (fun r : Fin 2 => (⟨0, 0, 3 * (r.val : ℝ)⟩ : V3)) 0 :=
    ⟨by norm_num [V3.sub, V3.normSq, V3.dot], fun e' he' => absurd he' (Fin.not_lt_zero e')⟩
  refine ⟨?_, hl, 1, rfl, one_pos⟩
  intro e _
  have he : e = 0 := Subsingleton.elim _ _
  subst he
  have hx := demo_ball.leave 0 0 hl
  have := (C24_sphere_straight_partial hx (n1 := 3 / 2) (n2 := 1) (by norm_num) one_pos (Or.inr (by
    ext <;> norm_num [V3.cross, V3.smul, V3.zero]))).1
  simpa [exitKzOf] using this

end
end Verif.Props
