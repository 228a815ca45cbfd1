import Verif.Model.Restart
import Verif.Lemmas.Exits
import Verif.Props.Geometry2
import Verif.Props.Exits

/-!
# Exits from a sphere and the re-run of internally reflected light: C84, C85
-/

namespace Verif.Props
open Classical Verif.Spec Verif.Root Verif.Geometry Verif.Exits Verif.Restart XF

/-- After event number `m` (row `m` of the positions; row 0 is the start) the photon is strictly outside the sphere of
diameter `D` that touches the plane z = 0 from above at the origin. -/
def OutsideAfter {nev nt : ℕ} (D : ℝ) (pos : Fin (nev + 1) → Fin nt → V3) (j : Fin nt) (m : ℕ) : Prop :=
  ∃ r : Fin (nev + 1), r.val = m ∧ (D / 2) * (D / 2) < (V3.sub (pos r j) ⟨0, 0, D / 2⟩).normSq

theorem potential_iff {nev nt : ℕ} (D : ℝ) (pos : Fin (nev + 1) → Fin nt → V3) (j : Fin nt) (m : ℕ) (hm : 1 ≤ m) :
    flagged (potentialSphere D (fun e j => (pos e j).x) (fun e j => (pos e j).y) (fun e j => (pos e j).z)) j m ↔
      OutsideAfter D pos j m := by
  unfold flagged OutsideAfter potentialSphere
  constructor
  · rintro ⟨e, he, h⟩
    refine ⟨e.succ, by simpa using he, ?_⟩
    have := of_decide_eq_true h
    simp only [V3.normSq, V3.dot, V3.sub]
    nlinarith
  · rintro ⟨r, hr, h⟩
    refine ⟨⟨m - 1, by omega⟩, by simp; omega, decide_eq_true ?_⟩
    have e : (Fin.succ ⟨m - 1, by omega⟩ : Fin (nev + 1)) = r := by ext; simp; omega
    rw [e]
    simp only [V3.normSq, V3.dot, V3.sub] at h
    nlinarith

theorem isFirst_congr {n m : ℕ} {P Q : ℕ → Prop} (h : ∀ k, 1 ≤ k → (P k ↔ Q k)) : IsFirst n P m ↔ IsFirst n Q m := by
  unfold IsFirst
  constructor
  · rintro ⟨a, b, c, d⟩
    exact ⟨a, b, (h m a).1 c, fun k h1 h2 hq => d k h1 h2 ((h k h1).2 hq)⟩
  · rintro ⟨a, b, c, d⟩
    exact ⟨a, b, (h m a).2 c, fun k h1 h2 hq => d k h1 h2 ((h k h1).1 hq)⟩

theorem potentialIndices_eq {nev nt : ℕ} {D : ℝ} {pos : Fin (nev + 1) → Fin nt → V3} {j : Fin nt} {m : ℕ}
    (hm : IsFirst nev (OutsideAfter D pos j) m) : potentialIndices D pos j = m := by
  unfold potentialIndices
  rw [firstEvent_eq_iff _ _ (by have := hm.1; omega)]
  exact (isFirst_congr fun k hk => potential_iff D pos j k hk).2 hm

theorem selV_eq {nev nt : ℕ} (a : Fin nev → Fin nt → V3) (indices : Fin nt → ℕ) (j : Fin nt) (e : Fin nev)
    (h : indices j = e.val + 1) : selV a indices j = a e j := by
  have h' : 0 < indices j ∧ indices j - 1 < nev := by have := e.isLt; omega
  have e1 : (⟨indices j - 1, h'.2⟩ : Fin nev) = e := by ext; simp [h]
  unfold selV sel
  simp only [h', and_self, dif_pos, e1]

theorem kzCorrect_eq {nev nt : ℕ} (ns nm : ℝ) {D : ℝ} {pos : Fin (nev + 1) → Fin nt → V3} (dir : Fin nev → Fin nt → V3)
    {j : Fin nt} {e : Fin nev} (hm : IsFirst nev (OutsideAfter D pos j) (e.val + 1)) :
    kzCorrect ns nm D pos dir j =
      exitKz (ofV3 (V3.sub (pos e.castSucc j) ⟨0, 0, D / 2⟩)) (ofV3 (V3.sub (pos e.succ j) ⟨0, 0, D / 2⟩))
        (ofV3 (dir e j)) D ns nm := by
  unfold kzCorrect
  have h := potentialIndices_eq hm
  simp only
  rw [selV_eq _ _ _ e h, selV_eq _ _ _ e h, selV_eq _ _ _ e h]
  simp [ofV3, centred, V3.sub]

theorem firstEvent_and {nev nt : ℕ} (p : Fin nev → Fin nt → Bool) (b : Fin nt → Bool) (j : Fin nt) :
    firstEvent (fun e j => p e j && b j) j = if b j = true then firstEvent p j else 0 := by
  split
  · next h => rw [firstEvent_eq, firstEvent_eq]; simp only [h, Bool.and_true]
  · next h => rw [firstEvent_zero_iff]; intro e; simp [h]

/-- C84.  A trajectory in a sphere is decided at the first event after which it is outside, by the z component that the
direction has once refracted at that event: negative means reflected, positive transmitted, not-a-number (total internal
reflection) or exactly zero means stuck; the totally reflected one is reported in the fourth list. -/
theorem C84_sphere_first_exit {nev nt : ℕ} (ns nm D : ℝ) (pos : Fin (nev + 1) → Fin nt → V3) (dir : Fin nev → Fin nt → V3)
    (j : Fin nt) (e : Fin nev) (hm : IsFirst nev (OutsideAfter D pos j) (e.val + 1)) :
    let X := sphereTables ns nm D pos dir
    let I := findEventIndices X.neg X.pos X.tir
    let kz := exitKz (ofV3 (V3.sub (pos e.castSucc j) ⟨0, 0, D / 2⟩)) (ofV3 (V3.sub (pos e.succ j) ⟨0, 0, D / 2⟩))
        (ofV3 (dir e j)) D ns nm
    (kz < fin 0 → I.1 j = e.val + 1 ∧ I.2.1 j = 0 ∧ I.2.2.1 j = 0 ∧ I.2.2.2 j = 0) ∧
    (fin 0 < kz → I.1 j = 0 ∧ I.2.1 j = e.val + 1 ∧ I.2.2.1 j = 0 ∧ I.2.2.2 j = 0) ∧
    (kz = nan → I.1 j = 0 ∧ I.2.1 j = 0 ∧ I.2.2.1 j = nev ∧ I.2.2.2 j = e.val + 1) ∧
    (kz = fin 0 → I.1 j = 0 ∧ I.2.1 j = 0 ∧ I.2.2.1 j = nev ∧ I.2.2.2 j = 0) := by
  intro X I kz
  have hk : kzCorrect ns nm D pos dir j = kz := kzCorrect_eq ns nm dir hm
  have hp : potentialIndices D pos j = e.val + 1 := potentialIndices_eq hm
  unfold potentialIndices at hp
  have hneg : firstEvent X.neg j = if kz < fin 0 then e.val + 1 else 0 := by
    simp only [X, sphereTables, findValidExitsSphere]
    rw [firstEvent_and _ (fun j => decide (kzCorrect ns nm D pos dir j < fin 0)), hp, hk]
    simp
  have hpos : firstEvent X.pos j = if fin 0 < kz then e.val + 1 else 0 := by
    simp only [X, sphereTables, findValidExitsSphere]
    rw [firstEvent_and _ (fun j => decide (fin 0 < kzCorrect ns nm D pos dir j)), hp, hk]
    simp
  have htir : firstEvent X.tir j = if kz = nan then e.val + 1 else 0 := by
    simp only [X, sphereTables, findValidExitsSphere]
    rw [firstEvent_and _ (fun j => !(!decide (isNaN (kzCorrect ns nm D pos dir j)))), hp, hk]
    simp [isNaN_iff]
  have hI : I = (reflIndices X.neg X.pos, transIndices X.neg X.pos, stuckIndices X.neg X.pos, firstEvent X.tir) := rfl
  rw [hI]
  simp only [refl_cases, trans_cases, stuck_cases, hneg, hpos, htir]
  clear_value kz
  clear hneg hpos htir hk
  refine ⟨?_, ?_, ?_, ?_⟩
  · intro h
    have h2 : ¬ fin 0 < kz := by
      rcases kz with r | _ | _ | _
      · rw [fin_lt] at h ⊢; linarith
      · exact absurd h (fun h => nomatch h)
      · exact fun h => nomatch h
      · exact fun h => nomatch h
    have h3 : kz ≠ nan := by rintro h'; rw [h'] at h; exact (nomatch h)
    simp [h, h2, h3]
  · intro h
    have h2 : ¬ kz < fin 0 := by
      rcases kz with r | _ | _ | _
      · rw [fin_lt] at h ⊢; linarith
      · exact fun h => nomatch h
      · exact absurd h (fun h => nomatch h)
      · exact fun h => nomatch h
    have h3 : kz ≠ nan := by rintro h'; rw [h'] at h; exact (nomatch h)
    simp [h, h2, h3]
  · intro h
    simp [h]
  · intro h
    simp [h]

/-- C84.  A trajectory that is never outside the sphere is stuck, and neither reflected, transmitted nor totally
reflected. -/
theorem C84_sphere_never_outside {nev nt : ℕ} (ns nm D : ℝ) (pos : Fin (nev + 1) → Fin nt → V3) (dir : Fin nev → Fin nt → V3)
    (j : Fin nt) (hm : ∀ m, 1 ≤ m → ¬ OutsideAfter D pos j m) :
    let X := sphereTables ns nm D pos dir
    let I := findEventIndices X.neg X.pos X.tir
    I.1 j = 0 ∧ I.2.1 j = 0 ∧ I.2.2.1 j = nev ∧ I.2.2.2 j = 0 := by
  intro X I
  have hp : ∀ e, potentialSphere D (fun e j => (pos e j).x) (fun e j => (pos e j).y) (fun e j => (pos e j).z) e j = false := by
    intro e
    by_contra h
    exact hm (e.val + 1) (by omega) ((potential_iff D pos j _ (by omega)).1 ⟨e, rfl, by simpa using h⟩)
  have h1 : firstEvent X.neg j = 0 := (firstEvent_zero_iff _ _).2 fun e => by
    simp [X, sphereTables, findValidExitsSphere, hp]
  have h2 : firstEvent X.pos j = 0 := (firstEvent_zero_iff _ _).2 fun e => by
    simp [X, sphereTables, findValidExitsSphere, hp]
  have h3 : firstEvent X.tir j = 0 := (firstEvent_zero_iff _ _).2 fun e => by
    simp [X, sphereTables, findValidExitsSphere, hp]
  have hI : I = (reflIndices X.neg X.pos, transIndices X.neg X.pos, stuckIndices X.neg X.pos, firstEvent X.tir) := rfl
  rw [hI]
  simp [refl_cases, trans_cases, stuck_cases, h1, h2, h3]

/-- C84.  Light that reaches the surface from inside is totally internally reflected exactly when the sine of its angle of
incidence, times the index inside, exceeds the index outside. -/
theorem C84_sphere_total_reflection {nev nt : ℕ} {ns nm R : ℝ} (hs : 0 < ns) (hn : 0 < nm) (pos : Fin (nev + 1) → Fin nt → V3)
    (dir : Fin nev → Fin nt → V3) (j : Fin nt) (e : Fin nev) (q : V3)
    (hm : IsFirst nev (OutsideAfter (2 * R) pos j) (e.val + 1))
    (hx : SphereExit R (V3.sub (pos e.castSucc j) ⟨0, 0, R⟩) (V3.sub (pos e.succ j) ⟨0, 0, R⟩) (dir e j) q) :
    let X := sphereTables ns nm (2 * R) pos dir
    let I := findEventIndices X.neg X.pos X.tir
    let sinθ := (V3.cross (V3.smul (1 / R) q) (dir e j)).norm
    (nm < ns * sinθ → I.2.2.2 j = e.val + 1 ∧ I.1 j = 0 ∧ I.2.1 j = 0) ∧
    (ns * sinθ ≤ nm → I.2.2.2 j = 0) := by
  intro X I sinθ
  have h := C84_sphere_first_exit ns nm (2 * R) pos dir j e hm
  have hR : 2 * R / 2 = R := by ring
  simp only [hR] at h
  have ht := C24_sphere_tir_partial hx hs hn
  set kz := exitKz (ofV3 (V3.sub (pos e.castSucc j) ⟨0, 0, R⟩)) (ofV3 (V3.sub (pos e.succ j) ⟨0, 0, R⟩))
        (ofV3 (dir e j)) (2 * R) ns nm with hkz
  obtain ⟨ha, hb, hc, hd⟩ := h
  constructor
  · intro h'
    obtain ⟨h1, h2, _, h4⟩ := hc (ht.2 h')
    exact ⟨h4, h1, h2⟩
  · intro h'
    have hnn : kz ≠ nan := fun h => absurd (ht.1 h) (not_lt.mpr h')
    rcases hcase : kz with r | _ | _ | _
    · rcases lt_trichotomy r 0 with hr | hr | hr
      · exact (ha (by rw [hcase]; simpa using hr)).2.2.2
      · exact (hd (by rw [hcase, hr])).2.2.2
      · exact (hb (by rw [hcase]; simpa using hr)).2.2.2
    · exact (hb (by rw [hcase]; trivial)).2.2.2
    · exact (ha (by rw [hcase]; trivial)).2.2.2
    · exact absurd hcase hnn

/-- C84.  Light that meets the surface at normal incidence, or a sphere of the same index as its surroundings, is reflected
if it travels towards the source and transmitted if it travels away from it. -/
theorem C84_sphere_straight {nev nt : ℕ} {ns nm R : ℝ} (hs : 0 < ns) (hn : 0 < nm) (pos : Fin (nev + 1) → Fin nt → V3)
    (dir : Fin nev → Fin nt → V3) (j : Fin nt) (e : Fin nev) (q : V3)
    (hm : IsFirst nev (OutsideAfter (2 * R) pos j) (e.val + 1))
    (hx : SphereExit R (V3.sub (pos e.castSucc j) ⟨0, 0, R⟩) (V3.sub (pos e.succ j) ⟨0, 0, R⟩) (dir e j) q)
    (hstr : ns = nm ∨ V3.cross (V3.smul (1 / R) q) (dir e j) = V3.zero) :
    let X := sphereTables ns nm (2 * R) pos dir
    let I := findEventIndices X.neg X.pos X.tir
    ((dir e j).z < 0 → I.1 j = e.val + 1) ∧ (0 < (dir e j).z → I.2.1 j = e.val + 1) := by
  intro X I
  have h := C84_sphere_first_exit ns nm (2 * R) pos dir j e hm
  have hR : 2 * R / 2 = R := by ring
  simp only [hR] at h
  have ht := (C24_sphere_straight_partial hx hs hn hstr).1
  rw [ht] at h
  exact ⟨fun hz => (h.1 (by simpa using hz)).1, fun hz => (h.2.1 (by simpa using hz)).2.1⟩

/-- Non-vacuity of C84: from the centre of a sphere of diameter 2 straight up; the first event ends outside. -/
theorem restart_witness_up : IsFirst 1 (OutsideAfter (2 * 1) (nev := 1) (nt := 1) (fun r _ => ⟨0, 0, 1 + 2 * (r.val : ℝ)⟩) 0) ((0 : Fin 1).val + 1) ∧
    SphereExit 1 (V3.sub ⟨0, 0, 1 + 2 * (((0 : Fin 1).castSucc : Fin 2).val : ℝ)⟩ ⟨0, 0, 1⟩)
      (V3.sub ⟨0, 0, 1 + 2 * (((0 : Fin 1).succ : Fin 2).val : ℝ)⟩ ⟨0, 0, 1⟩) ⟨0, 0, 1⟩ ⟨0, 0, 1⟩ := by
  refine ⟨⟨by simp, by simp, ⟨1, by simp, by norm_num [V3.normSq, V3.dot, V3.sub]⟩, fun k h1 h2 => ?_⟩, ?_⟩
  · simp at h2; omega
  · refine ⟨one_pos, by norm_num [V3.normSq, V3.dot, V3.sub], by norm_num [V3.normSq, V3.dot, V3.sub], ?_,
      by norm_num [V3.normSq, V3.dot], ⟨2, by norm_num, ?_⟩, ⟨1, one_pos, ?_⟩, by norm_num [V3.normSq, V3.dot]⟩
    · norm_num [Bounded, V3.sub]
    · ext <;> norm_num [V3.sub, V3.smul]
    · ext <;> norm_num [V3.add, V3.sub, V3.smul]

/-- Non-vacuity of C84_sphere_total_reflection, both sides: leaving at `sin θ = 4/5` from index 3/2 (totally reflected) or 1. -/
example : ∃ q : V3, SphereExit 1 ⟨4 / 5, 0, 0⟩ ⟨4 / 5, 0, 1⟩ ⟨0, 0, 1⟩ q ∧
    (1 : ℝ) < 3 / 2 * (V3.cross (V3.smul (1 / 1) q) ⟨0, 0, 1⟩).norm ∧ (1 : ℝ) * (V3.cross (V3.smul (1 / 1) q) ⟨0, 0, 1⟩).norm ≤ 1 := by
  have hn : (V3.cross (V3.smul (1 / 1) (⟨4 / 5, 0, 3 / 5⟩ : V3)) ⟨0, 0, 1⟩).norm = 4 / 5 := by
    apply norm_eq_of_normSq (by norm_num)
    norm_num [V3.normSq, V3.dot, V3.cross, V3.smul]
  refine ⟨⟨4 / 5, 0, 3 / 5⟩, ?_, by rw [hn]; norm_num, by rw [hn]; norm_num⟩
  refine ⟨one_pos, by norm_num [V3.normSq, V3.dot], by norm_num [V3.normSq, V3.dot], ?_,
      by norm_num [V3.normSq, V3.dot], ⟨1, by norm_num, ?_⟩, ⟨3 / 5, by norm_num, ?_⟩, by norm_num [V3.normSq, V3.dot]⟩
  · norm_num [Bounded, abs_of_pos]
  · ext <;> norm_num [V3.sub, V3.smul]
  · ext <;> norm_num [V3.add, V3.smul]

/-! ## C85 -/

/-- C85, the part that holds: light sent back at the surface of a sphere at event `m` starts again at the point where the
event's straight step meets the surface, in the mirror direction (unit length, same tangential part, opposite normal
part), and so enters the sphere.  Missing: stuck trajectories and the weights, refuted below. -/
theorem C85_restart_partial {nev nt : ℕ} {R : ℝ} (pos : Fin (nev + 1) → Fin nt → V3) (dir : Fin nev → Fin nt → V3)
    (indices : Fin nt → ℕ) (hi : ∀ j, indices j ≤ nev) (j : Fin nt) (e : Fin nev) (he : indices j = e.val + 1) (q : V3)
    (hx : SphereExit R (V3.sub (pos e.castSucc j) ⟨0, 0, R⟩) (V3.sub (pos e.succ j) ⟨0, 0, R⟩) (dir e j) q)
    (hb0 : Bounded (pos e.castSucc j) (10 ^ 20 * R)) (hb1 : Bounded (pos e.succ j) (10 ^ 20 * R)) :
    ∃ (F : Fin nt → XV × XV) (p k : V3), restart (2 * R) pos dir indices = .ok F ∧ F j = (ofV3 p, ofV3 k) ∧
      p = V3.add q ⟨0, 0, R⟩ ∧
      (∃ s : ℝ, 0 ≤ s ∧ s ≤ 1 ∧ p = V3.add (pos e.castSucc j) (V3.smul s (V3.sub (pos e.succ j) (pos e.castSucc j)))) ∧
      k.normSq = 1 ∧ V3.cross q k = V3.cross q (dir e j) ∧ V3.dot k q = -V3.dot (dir e j) q ∧
      ∃ ε : ℝ, 0 < ε ∧ ∀ t : ℝ, 0 < t → t < ε → (V3.sub (V3.add p (V3.smul t k)) ⟨0, 0, R⟩).normSq < R * R := by
  have hR := hx.radius
  obtain ⟨hf, ⟨s, hs0, hs1, hqs⟩, _⟩ := hx.intersect_angles
  set n := V3.smul (1 / R) q with hn
  have hnu : n.normSq = 1 := hx.normal_unit
  have hqn : q = V3.smul R n := by rw [hn]; ext <;> simp only [V3.smul] <;> field_simp
  have hpos := hx.dot_pos
  rw [← hn] at hpos
  obtain ⟨hk1, hk2, hk3, _⟩ := C22_mirror (dir e j) n hnu
  set k := reflectV (dir e j) n with hkdef
  have hF : ∃ F, restart (2 * R) pos dir indices = .ok F ∧ F j = (ofV3 (V3.add q ⟨0, 0, R⟩), ofV3 k) := by
    unfold restart
    rw [if_neg (by push Not; exact hi)]
    refine ⟨_, rfl, ?_⟩
    have hsel : sel (fun (_ : Fin (nev + 1)) (_ : Fin nt) => 2 * R / 2) indices j = R := by
      have h' : 0 < indices j ∧ indices j - 1 < nev + 1 := by have := e.isLt; omega
      simp only [sel, h', and_self, dif_pos]; ring
    have hR2 : 2 * R / 2 = R := by ring
    simp only [selV_eq _ _ _ e he, hsel]
    simp only [hR2]
    have hid := infToLarge_id hb0 hb1
    simp only [ofV3] at hid
    rw [hid]
    have hf' := hf
    simp only [ofV3, finV, V3.sub, sub_zero] at hf'
    simp only [finV, fin_sub] at *
    rw [hf']
    simp only [fin_add, fin_sub, add_sub_cancel_right, fin_div _ hR.ne', rotateReflectX, fin_mul]
    simp only [Prod.mk.injEq, ofV3, finV, V3.add, add_zero, XV.mk.injEq, fin_inj, true_and]
    simp only [hkdef, reflectV, rotateReflect, hn, V3.smul]
    refine ⟨?_, ?_, ?_⟩ <;> ring
  obtain ⟨F, hF1, hF2⟩ := hF
  refine ⟨F, V3.add q ⟨0, 0, R⟩, k, hF1, hF2, rfl, ⟨s, hs0, hs1, ?_⟩, by rw [hk1, hx.unit], ?_, ?_, ?_⟩
  · have hx' := congrArg V3.x hqs
    have hy' := congrArg V3.y hqs
    have hz' := congrArg V3.z hqs
    simp only [V3.add, V3.smul, V3.sub] at hx' hy' hz'
    ext <;> simp only [V3.add, V3.smul, V3.sub]
    · rw [hx']; ring
    · rw [hy']; ring
    · rw [hz']; ring
  · rw [hqn]
    have : ∀ v, V3.cross (V3.smul R n) v = V3.smul R (V3.cross n v) := by
      intro v; ext <;> simp only [V3.cross, V3.smul] <;> ring
    rw [this, this, hk3]
  · rw [hqn]
    have : ∀ v, V3.dot v (V3.smul R n) = R * V3.dot v n := by
      intro v; simp only [V3.dot, V3.smul]; ring
    rw [this, this, hk2]; ring
  · refine ⟨2 * R * V3.dot n (dir e j), by positivity, fun t ht0 ht1 => ?_⟩
    have e1 : (V3.sub (V3.add (V3.add q ⟨0, 0, R⟩) (V3.smul t k)) ⟨0, 0, R⟩).normSq =
        q.normSq + 2 * t * V3.dot k q + t * t * k.normSq := by
      simp only [V3.normSq, V3.dot, V3.add, V3.sub, V3.smul]; ring
    have e2 : V3.dot k q = -(R * V3.dot n (dir e j)) := by
      have : V3.dot k q = R * V3.dot k n := by rw [hqn]; simp only [V3.dot, V3.smul]; ring
      rw [this, hk2]
      simp only [V3.dot]; ring
    rw [e1, e2, hk1, hx.unit, hx.surface]
    nlinarith

/-- Non-vacuity of C85_restart_partial: one photon from the centre of a sphere of radius 1, leaving straight up. -/
example : ∃ q : V3, SphereExit 1 (V3.sub ⟨0, 0, 1⟩ ⟨0, 0, 1⟩) (V3.sub ⟨0, 0, 3⟩ ⟨0, 0, 1⟩) ⟨0, 0, 1⟩ q ∧
    Bounded ⟨0, 0, 1⟩ (10 ^ 20 * 1) ∧ Bounded ⟨0, 0, 3⟩ (10 ^ 20 * 1) := by
  refine ⟨⟨0, 0, 1⟩, ?_, by norm_num [Bounded], by norm_num [Bounded, abs_of_pos]⟩
  have h := restart_witness_up.2
  norm_num at h
  exact h

/-- C85: the event number used for the restart in a sphere is that of the first crossing of the surface, whatever became of
the photon there (unless its refracted direction is exactly horizontal: then it counts as stuck), so that
`C85_restart_partial` applies; it is never past the last event. -/
theorem C85_sphere_event_partial {nev nt : ℕ} (ns nm D : ℝ) (pos : Fin (nev + 1) → Fin nt → V3) (dir : Fin nev → Fin nt → V3)
    (j : Fin nt) :
    let X := sphereTables ns nm D pos dir
    let I := findEventIndices X.neg X.pos X.tir
    let m := restartIndices I.1 I.2.1 I.2.2.2 j
    m ≤ nev ∧ ((∀ r, 1 ≤ r → ¬ OutsideAfter D pos j r) → m = 0) ∧
    ∀ e : Fin nev, IsFirst nev (OutsideAfter D pos j) (e.val + 1) →
      exitKz (ofV3 (V3.sub (pos e.castSucc j) ⟨0, 0, D / 2⟩)) (ofV3 (V3.sub (pos e.succ j) ⟨0, 0, D / 2⟩))
        (ofV3 (dir e j)) D ns nm ≠ fin 0 → m = e.val + 1 := by
  intro X I m
  have hnone : (∀ r, 1 ≤ r → ¬ OutsideAfter D pos j r) → m = 0 := by
    intro h
    obtain ⟨h1, h2, _, h4⟩ := C84_sphere_never_outside ns nm D pos dir j h
    simp only [m, restartIndices, I, X, h1, h2, h4]
  have hsome : ∀ e : Fin nev, IsFirst nev (OutsideAfter D pos j) (e.val + 1) → (m = e.val + 1 ∨ m = 0) ∧
      (exitKz (ofV3 (V3.sub (pos e.castSucc j) ⟨0, 0, D / 2⟩)) (ofV3 (V3.sub (pos e.succ j) ⟨0, 0, D / 2⟩))
        (ofV3 (dir e j)) D ns nm ≠ fin 0 → m = e.val + 1) := by
    intro e he
    have h := C84_sphere_first_exit ns nm D pos dir j e he
    simp only at h
    obtain ⟨ha, hb, hc, hd⟩ := h
    set kz := exitKz (ofV3 (V3.sub (pos e.castSucc j) ⟨0, 0, D / 2⟩)) (ofV3 (V3.sub (pos e.succ j) ⟨0, 0, D / 2⟩))
        (ofV3 (dir e j)) D ns nm with hkz
    have hneg : kz < fin 0 → m = e.val + 1 := fun h => by
      obtain ⟨h1, h2, _, h4⟩ := ha h
      simp only [m, restartIndices, I, X, h1, h2, h4, add_zero]
    have hpos : fin 0 < kz → m = e.val + 1 := fun h => by
      obtain ⟨h1, h2, _, h4⟩ := hb h
      simp only [m, restartIndices, I, X, h1, h2, h4, add_zero, zero_add]
    have hnan : kz = nan → m = e.val + 1 := fun h => by
      obtain ⟨h1, h2, _, h4⟩ := hc h
      simp only [m, restartIndices, I, X, h1, h2, h4, zero_add]
    have hzero : kz = fin 0 → m = 0 := fun h => by
      obtain ⟨h1, h2, _, h4⟩ := hd h
      simp only [m, restartIndices, I, X, h1, h2, h4]
    rcases hcase : kz with r | _ | _ | _
    · rcases lt_trichotomy r 0 with hr | hr | hr
      · have := hneg (by rw [hcase]; simpa using hr)
        exact ⟨Or.inl this, fun _ => this⟩
      · exact ⟨Or.inr (hzero (by rw [hcase, hr])), fun h => absurd (by rw [hr]) h⟩
      · have := hpos (by rw [hcase]; simpa using hr)
        exact ⟨Or.inl this, fun _ => this⟩
    · have := hpos (by rw [hcase]; trivial)
      exact ⟨Or.inl this, fun _ => this⟩
    · have := hneg (by rw [hcase]; trivial)
      exact ⟨Or.inl this, fun _ => this⟩
    · have := hnan hcase
      exact ⟨Or.inl this, fun _ => this⟩
  refine ⟨?_, hnone, fun e he => (hsome e he).2⟩
  by_cases h : ∀ r, 1 ≤ r → ¬ OutsideAfter D pos j r
  · rw [hnone h]; omega
  · push Not at h
    obtain ⟨r, hr1, hr⟩ := h
    have hex : ∃ r, 1 ≤ r ∧ OutsideAfter D pos j r := ⟨r, hr1, hr⟩
    obtain ⟨h1, h2⟩ := Nat.find_spec hex
    set f := Nat.find hex with hf
    have hfn : f ≤ nev := by
      obtain ⟨r', hr', _⟩ := h2
      have := r'.isLt
      omega
    have hfirst : IsFirst nev (OutsideAfter D pos j) ((⟨f - 1, by omega⟩ : Fin nev).val + 1) := by
      have e : (⟨f - 1, by omega⟩ : Fin nev).val + 1 = f := by simp; omega
      rw [e]
      exact ⟨h1, hfn, h2, fun k hk1 hk2 hk => Nat.find_min hex (hf ▸ hk2) ⟨hk1, hk⟩⟩
    rcases (hsome _ hfirst).1 with h | h
    · rw [h]; simp; omega
    · rw [h]; omega

/-- C85 is FALSE of stuck trajectories: one with no exit event is started again at the bottom of the sphere (where light
enters) with a direction of length zero, wherever it was and however it moved. -/
theorem C85_stuck_restart_refuted {nev nt : ℕ} {R : ℝ} (hR : 0 < R) (pos : Fin (nev + 1) → Fin nt → V3)
    (dir : Fin nev → Fin nt → V3) (indices : Fin nt → ℕ) (hi : ∀ j, indices j ≤ nev) (j : Fin nt) (h0 : indices j = 0) :
    ∃ F : Fin nt → XV × XV, restart (2 * R) pos dir indices = .ok F ∧ F j = (ofV3 ⟨0, 0, 0⟩, ofV3 ⟨0, 0, 0⟩) := by
  have hz : ∀ a : Fin nev → Fin nt → V3, selV a indices j = ⟨0, 0, 0⟩ := by
    intro a; simp [selV, sel, h0]
  unfold restart
  rw [if_neg (by push Not; exact hi)]
  refine ⟨_, rfl, ?_⟩
  have hsel : sel (fun (_ : Fin (nev + 1)) (_ : Fin nt) => 2 * R / 2) indices j = 0 := by simp [sel, h0]
  have hR2 : 2 * R / 2 = R := by ring
  simp only [hz, hsel]
  simp only [hR2]
  have hid := infToLarge_id (p0 := ⟨0, 0, 0⟩) (p1 := ⟨0, 0, 0⟩) (R := R) (by simp [Bounded, hR.le]) (by simp [Bounded, hR.le])
  simp only [ofV3] at hid
  rw [hid]
  have hm := C21_sphere_miss (p0 := ⟨0, 0, 0⟩) (p1 := ⟨0, 0, 0⟩) (R := R) (Or.inl rfl)
  simp only [ofV3, finV] at hm
  simp only [finV, fin_sub, sub_zero, hm, V3.zero, ofV3, fin_add, add_zero, rotateReflectX, fin_mul, mul_zero,
    fin_div _ hR.ne', zero_div]

/-- C85 is FALSE of the weight of totally internally reflected light: it is started again with the weight of the LAST event
of its trajectory, not with the weight it has when it reaches the surface. -/
theorem C85_tir_weight_refuted {nev nt : ℕ} {ns nm R : ℝ} (hs : 0 < ns) (hn : 0 < nm) (pos : Fin (nev + 2) → Fin nt → V3)
    (dir : Fin (nev + 1) → Fin nt → V3) (inc : Fin nt → XF) (w : Fin (nev + 1) → Fin nt → XF) (j : Fin nt) (e : Fin (nev + 1)) (q : V3)
    (hm : IsFirst (nev + 1) (OutsideAfter (2 * R) pos j) (e.val + 1))
    (hx : SphereExit R (V3.sub (pos e.castSucc j) ⟨0, 0, R⟩) (V3.sub (pos e.succ j) ⟨0, 0, R⟩) (dir e j) q)
    (htir : nm < ns * (V3.cross (V3.smul (1 / R) q) (dir e j)).norm) :
    let X := sphereTables ns nm (2 * R) pos dir
    let I := findEventIndices X.neg X.pos X.tir
    let O := Weights.calcOutcomeWeights inc I.1 I.2.1 I.2.2.1 w
    O.stuck j = inc j * w (Fin.last nev) j ∧ O.refl j = inc j * fin 0 ∧ O.trans j = inc j * fin 0 := by
  intro X I O
  have h := C84_sphere_first_exit ns nm (2 * R) pos dir j e hm
  have hR : 2 * R / 2 = R := by ring
  simp only [hR] at h
  obtain ⟨h1, h2, h3, _⟩ := h.2.2.1 ((C24_sphere_tir_partial hx hs hn).2 htir)
  have h1' : I.1 j = 0 := h1
  have h2' : I.2.1 j = 0 := h2
  have h3' : I.2.2.1 j = nev + 1 := h3
  have hz : (0 : XF) = fin 0 := rfl
  refine ⟨?_, ?_, ?_⟩
  · simp only [O, Weights.calcOutcomeWeights, sel, h3']
    simp [Fin.last]
  · simp only [O, Weights.calcOutcomeWeights, sel, h1']
    simp [hz]
  · simp only [O, Weights.calcOutcomeWeights, sel, h2']
    simp [hz]

/-- C85 is FALSE of films: `run_fresnel_traj` is not refused for a film, and a photon that is totally reflected at one event
and leaves at a later one has its two event numbers added, which can lie past the last event: an IndexError. -/
theorem C85_film_index_error_refuted :
    ∃ (pos : Fin (2 + 1) → Fin 1 → V3) (dir : Fin 2 → Fin 1 → V3),
      let X := findValidExitsFilm (3 / 2) 1 1 0 (fun e j => (pos e j).z) (fun e j => (dir e j).z)
      let I := findEventIndices X.neg X.pos X.tir
      restart 1 pos dir (restartIndices I.1 I.2.1 I.2.2.2) = .error .indexError := by
  refine ⟨fun e _ => ⟨0, 0, if e = 1 then -1 / 2 else 1 / 2⟩, fun e _ => ⟨0, 0, if e = 0 then -1 / 10 else 1⟩, ?_⟩
  intro X I
  have hcone : ∀ kz : ℝ, |kz| ≤ 1 → (noTirFilm (3 / 2) 1 kz = true ↔ 3 / 2 * Real.sqrt (1 - kz ^ 2) < 1) := fun kz h =>
    noTir_iff (by norm_num) (by norm_num) (by norm_num) h
  have c1 : noTirFilm (3 / 2) 1 (-1 / 10) = false := by
    rw [Bool.eq_false_iff, Ne, hcone _ (by norm_num [abs_of_neg])]
    have : (99 / 100 : ℝ) ≤ Real.sqrt (1 - (-1 / 10) ^ 2) := Real.le_sqrt_of_sq_le (by norm_num)
    linarith
  have c2 : noTirFilm (3 / 2) 1 1 = true := by
    rw [hcone _ (by norm_num)]
    norm_num
  have f1 : zFloor 1 0 (-1 / 2) = -1 := by
    unfold zFloor; rw [Int.floor_eq_iff]; norm_num
  have f2 : zFloor 1 0 2⁻¹ = 0 := by
    unfold zFloor; rw [Int.floor_eq_iff]; norm_num
  have hneg : firstEvent X.neg 0 = 2 := by
    rw [firstEvent_eq]
    simp [X, findValidExitsFilm, f1, f2, c1, c2, posDir, List.idxOf, List.findIdx, List.findIdx.go]
  have htir : firstEvent X.tir 0 = 1 := by
    rw [firstEvent_eq]
    simp [X, findValidExitsFilm, f1, f2, c1, c2, posDir, List.idxOf, List.findIdx, List.findIdx.go]
  have hpos : firstEvent X.pos 0 = 0 := by
    rw [firstEvent_eq]
    simp [X, findValidExitsFilm, f1, f2, c1, c2, posDir]
  unfold restart
  rw [if_pos]
  refine ⟨0, ?_⟩
  have hI : I = (reflIndices X.neg X.pos, transIndices X.neg X.pos, stuckIndices X.neg X.pos, firstEvent X.tir) := rfl
  rw [hI]
  simp [restartIndices, refl_cases, trans_cases, hneg, hpos, htir]

end Verif.Props
