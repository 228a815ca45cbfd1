import Verif.Model.SphereRun
import Verif.Props.Restart
import Verif.Props.Geometry3

/-!
# Lemmas for C100: geometry of a photon that leaves a sphere, with `inf_to_large`
-/

namespace Verif.Props
open Classical Verif.Spec Verif.Root Verif.Geometry Verif.Exits Verif.Restart Verif.XF Verif.SphereRun Verif.Simulation
open Verif (XF PyErr)
open Verif.Geometry (XV)

/-- what `inf_to_large` makes of a number -/
noncomputable def clipR (R a : ℝ) : ℝ := if 10 ^ 20 * R < a then 100 * R else if a < -(10 ^ 20) * R then -100 * R else a

theorem clipBoth_fin {R : ℝ} (hR : 0 < R) (a : ℝ) : clipBoth R (fin a) = fin (clipR R a) := by
  unfold clipBoth clipR
  simp only [fin_lt]
  split
  · simp only [fin_lt]
    rw [if_neg (not_lt.mpr (by nlinarith))]
  · simp only [fin_lt]
    split <;> rfl

theorem clipR_le {R : ℝ} (hR : 0 < R) (a : ℝ) : |clipR R a| ≤ 10 ^ 20 * R := by
  unfold clipR
  split
  · rw [abs_of_pos (by positivity)]; nlinarith
  · split
    · rw [show -100 * R = -(100 * R) by ring, abs_neg, abs_of_pos (by positivity)]; nlinarith
    · next h1 h2 => rw [abs_le]; constructor <;> linarith

/-- either nothing changes or the result is large -/
theorem clipR_cases {R : ℝ} (a : ℝ) : clipR R a = a ∨ clipR R a = 100 * R ∨ clipR R a = -(100 * R) := by
  unfold clipR
  split
  · exact Or.inr (Or.inl rfl)
  · split
    · exact Or.inr (Or.inr (by ring))
    · exact Or.inl rfl

noncomputable def clipV (R : ℝ) (p : V3) : V3 := ⟨clipR R p.x, clipR R p.y, clipR R p.z⟩

theorem clipV_bounded {R : ℝ} (hR : 0 < R) (p : V3) : Bounded (clipV R p) (10 ^ 20 * R) :=
  ⟨clipR_le hR _, clipR_le hR _, clipR_le hR _⟩

/-- a point outside stays outside; `c` is the height of the centre -/
theorem clipV_outside {R c : ℝ} (hR : 0 < R) (hc : 0 ≤ c ∧ c ≤ R) {p : V3} (h : R * R < (V3.sub p ⟨0, 0, c⟩).normSq) :
    R * R < (V3.sub (clipV R p) ⟨0, 0, c⟩).normSq := by
  have hx := clipR_cases (R := R) p.x
  have hy := clipR_cases (R := R) p.y
  have hz := clipR_cases (R := R) p.z
  simp only [V3.normSq, V3.dot, V3.sub, clipV, sub_zero] at h ⊢
  have big : ∀ a, (a = 100 * R ∨ a = -(100 * R)) → R * R < a * a := by
    rintro a (rfl | rfl) <;> nlinarith
  have n1 := mul_self_nonneg (clipR R p.x)
  have n2 := mul_self_nonneg (clipR R p.y)
  have n3 := mul_self_nonneg (clipR R p.z - c)
  rcases hx with hx | hx
  · rcases hy with hy | hy
    · rcases hz with hz | hz
      · rw [hx, hy, hz]; exact h
      · have : R * R < (clipR R p.z - c) * (clipR R p.z - c) := by
          rcases hz with hz | hz <;> rw [hz] <;> nlinarith
        linarith
    · have := big _ hy; linarith
  · have := big _ hx; linarith

theorem infToLarge_fin {R : ℝ} (hR : 0 < R) {p0 p1 : V3} (h0 : Bounded p0 (10 ^ 20 * R)) :
    infToLarge (ofV3 p0) (ofV3 p1) R = (ofV3 p0, ofV3 (clipV R p1)) := by
  unfold infToLarge ofV3 finV
  simp only [clipBoth_id h0.1, clipBoth_id h0.2.1, clipUpper_id h0.2.2, clipBoth_fin hR, clipV]

/-- the tangential exception -/
theorem find_tangential {p0 p1 : V3} {R : ℝ} (h1 : R * R < p1.normSq) (h0 : p0.normSq = R * R)
    (ht : V3.dot (V3.sub p1 p0) p0 = 0) : findVecSphereIntersect (ofV3 p0) (ofV3 p1) R = ofV3 V3.zero := by
  have hne : V3.sub p1 p0 ≠ V3.zero := by
    intro h
    have hp1 : p1.normSq = p0.normSq + 2 * V3.dot (V3.sub p1 p0) p0 + (V3.sub p1 p0).normSq := by
      simp only [V3.normSq, V3.dot, V3.sub]; ring
    rw [ht, h] at hp1
    simp only [V3.normSq, V3.dot, V3.zero] at hp1 h0 h1
    linarith
  have hd := norm_pos' hne
  rw [find_eq hd (norm_sq' _).symm le_rfl (s := 0) (by rw [ht, h0]; simp)]
  simp only [ht]
  norm_num
  rfl

theorem exit_point {p0 p1 : V3} {R : ℝ} (h0 : p0.normSq ≤ R * R) (h1 : R * R < p1.normSq) :
    findVecSphereIntersect (ofV3 p0) (ofV3 p1) R = ofV3 V3.zero ∨
    ∃ q : V3, q.normSq = R * R ∧ 0 < V3.dot (V3.sub p1 p0) q ∧ findVecSphereIntersect (ofV3 p0) (ofV3 p1) R = ofV3 q := by
  by_cases ht : p0.normSq = R * R ∧ V3.dot (V3.sub p1 p0) p0 = 0
  · exact Or.inl (find_tangential h1 ht.1 ht.2)
  · obtain ⟨s, -, -, hq, hd, hf⟩ := C21_sphere_intersect h0 h1 ht
    exact Or.inr ⟨_, hq, hd, hf⟩

/-- The angle at which a photon leaves: between 0 and π/2. -/
theorem exit_angle {p0 p1 : V3} {R : ℝ} (hR : 0 < R) (h0 : p0.normSq ≤ R * R) (h1 : R * R < p1.normSq) :
    ∃ θ : ℝ, (getAnglesSphere (ofV3 p0) (ofV3 p1) R).1 = fin θ ∧ 0 ≤ θ ∧ θ ≤ Real.pi / 2 := by
  have hb0 := bounded_of_normSq hR h0
  have hb1 := clipV_bounded hR p1
  have hz : ∀ p : V3, V3.sub p ⟨0, 0, 0⟩ = p := fun p => by simp [V3.sub]
  have hout : R * R < (clipV R p1).normSq := by
    have := clipV_outside (c := 0) hR ⟨le_rfl, hR.le⟩ (p := p1) (by rw [hz]; exact h1)
    rwa [hz] at this
  have heq : getAnglesSphere (ofV3 p0) (ofV3 p1) R = getAnglesSphere (ofV3 p0) (ofV3 (clipV R p1)) R := by
    unfold getAnglesSphere
    rw [infToLarge_fin hR hb0, infToLarge_id hb0 hb1]
  rw [heq]
  have hne : V3.sub (clipV R p1) p0 ≠ V3.zero := by
    intro h
    have : clipV R p1 = p0 := by
      simp only [V3.sub, V3.zero, V3.mk.injEq] at h
      ext <;> linarith [h.1, h.2.1, h.2.2]
    rw [this] at hout
    linarith
  rcases exit_point h0 hout with hf | ⟨q, hq, hd, hf⟩
  · refine ⟨Real.pi / 2, ?_, by positivity, le_rfl⟩
    unfold getAnglesSphere
    rw [infToLarge_id hb0 hb1]
    simp only [hf]
    have h0 : ofV3 V3.zero = finV 0 0 0 := rfl
    simp only [h0, normalizeCol_zero, nan_mul, nan_add, nanToNum_nan]
    rw [arccos_of_mem (by norm_num) (by norm_num), Real.arccos_zero]
  · refine ⟨_, congrArg Prod.fst (getAnglesSphere_eq hR hb0 hb1 hne hq hf), Real.arccos_nonneg _, ?_⟩
    rw [Real.arccos_le_pi_div_two]
    have e : V3.dot (V3.smul (1 / R) q) (V3.smul (1 / (V3.sub (clipV R p1) p0).norm) (V3.sub (clipV R p1) p0)) =
        1 / R * (1 / (V3.sub (clipV R p1) p0).norm) * V3.dot (V3.sub (clipV R p1) p0) q := by
      simp only [V3.dot, V3.smul]; ring
    rw [e]
    have := norm_pos' hne
    positivity

variable {nev nt : ℕ}

/-- what can become of a photon in a sphere -/
theorem sphere_cases (ns nm D : ℝ) (pos : Fin (nev + 1) → Fin nt → V3) (dir : Fin nev → Fin nt → V3) (j : Fin nt) :
    let X := sphereTables ns nm D pos dir
    let I := findEventIndices X.neg X.pos X.tir
    (I.1 j = 0 ∧ I.2.1 j = 0 ∧ I.2.2.1 j = nev ∧ I.2.2.2 j = 0) ∨
    ∃ e : Fin nev, IsFirst nev (OutsideAfter D pos j) (e.val + 1) ∧
      ((I.1 j = e.val + 1 ∧ I.2.1 j = 0 ∧ I.2.2.1 j = 0 ∧ I.2.2.2 j = 0) ∨
       (I.1 j = 0 ∧ I.2.1 j = e.val + 1 ∧ I.2.2.1 j = 0 ∧ I.2.2.2 j = 0) ∨
       (I.1 j = 0 ∧ I.2.1 j = 0 ∧ I.2.2.1 j = nev ∧ I.2.2.2 j = e.val + 1)) := by
  intro X I
  by_cases h : ∀ m, 1 ≤ m → ¬ OutsideAfter D pos j m
  · exact Or.inl (C84_sphere_never_outside ns nm D pos dir j h)
  · push Not at h
    have hex : ∃ m, 1 ≤ m ∧ OutsideAfter D pos j m := h
    have hf := Nat.find_spec hex
    set m := Nat.find hex with hm
    obtain ⟨r, hr, hr'⟩ := hf.2
    have hmn : m ≤ nev := by have := r.isLt; omega
    have hfirst : IsFirst nev (OutsideAfter D pos j) m :=
      ⟨hf.1, hmn, hf.2, fun k h1 h2 hk => Nat.find_min hex h2 ⟨h1, hk⟩⟩
    let e : Fin nev := ⟨m - 1, by omega⟩
    have he : e.val + 1 = m := by have := hf.1; simp only [e]; omega
    rw [← he] at hfirst
    obtain ⟨c1, c2, c3, c4⟩ := C84_sphere_first_exit ns nm D pos dir j e hfirst
    set kz := exitKz (ofV3 (V3.sub (pos e.castSucc j) ⟨0, 0, D / 2⟩)) (ofV3 (V3.sub (pos e.succ j) ⟨0, 0, D / 2⟩))
        (ofV3 (dir e j)) D ns nm with hkz
    cases hk : kz with
    | nan => exact Or.inr ⟨e, hfirst, Or.inr (Or.inr (c3 hk))⟩
    | pinf => exact Or.inr ⟨e, hfirst, Or.inr (Or.inl (c2 (by rw [hk]; trivial)))⟩
    | ninf => exact Or.inr ⟨e, hfirst, Or.inl (c1 (by rw [hk]; trivial))⟩
    | fin z =>
      rcases lt_trichotomy z 0 with hz | hz | hz
      · exact Or.inr ⟨e, hfirst, Or.inl (c1 (by rw [hk, fin_lt]; exact hz))⟩
      · exact Or.inl (c4 (by rw [hk, hz]))
      · exact Or.inr ⟨e, hfirst, Or.inr (Or.inl (c2 (by rw [hk, fin_lt]; exact hz)))⟩

/-- before the first crossing the photon is inside, if it starts inside -/
theorem inside_before {D : ℝ} {pos : Fin (nev + 1) → Fin nt → V3} {j : Fin nt} {e : Fin nev}
    (h0 : (V3.sub (pos 0 j) ⟨0, 0, D / 2⟩).normSq ≤ (D / 2) * (D / 2))
    (hm : IsFirst nev (OutsideAfter D pos j) (e.val + 1)) :
    (V3.sub (pos e.castSucc j) ⟨0, 0, D / 2⟩).normSq ≤ (D / 2) * (D / 2) ∧
    (D / 2) * (D / 2) < (V3.sub (pos e.succ j) ⟨0, 0, D / 2⟩).normSq := by
  constructor
  · rcases Nat.eq_zero_or_pos e.val with he | he
    · have : e.castSucc = 0 := by ext; simp [he]
      rw [this]; exact h0
    · by_contra hc
      push Not at hc
      exact hm.2.2.2 e.val he (Nat.lt_succ_self _) ⟨e.castSucc, by simp, hc⟩
  · obtain ⟨r, hr, h⟩ := hm.2.2.1
    have : r = e.succ := by ext; simp [hr]
    rwa [← this]

/-- a photon never outside has no exit event -/
theorem exitAngle_mem {D : ℝ} (hD : 0 < D) {pos : ℕ → Fin nt → V3} {idx : Fin nt → ℕ} {j : Fin nt}
    (h0 : (V3.sub (pos 0 j) ⟨0, 0, D / 2⟩).normSq ≤ (D / 2) * (D / 2))
    (h : idx j = 0 ∨ ∃ e : Fin nev, IsFirst nev (OutsideAfter D (rowsP nev pos) j) (e.val + 1) ∧ idx j = e.val + 1) :
    ∃ θ : ℝ, exitAngle nev D pos idx j = fin θ ∧ 0 ≤ θ ∧ θ ≤ Real.pi / 2 := by
  have hR : 0 < D / 2 := by linarith
  rcases h with h | ⟨e, he, h⟩
  · refine ⟨Real.pi / 2, ?_, by positivity, le_rfl⟩
    have hz : ∀ a : Fin nev → Fin nt → V3, selV a idx j = V3.zero := fun a => by
      simp only [selV, sel_zero _ idx j h]; rfl
    unfold exitAngle
    simp only [hz]
    exact congrArg Prod.fst (C27_sphere_no_event (D / 2) hR)
  · have hin := inside_before (pos := rowsP nev pos) (j := j) (e := e) h0 he
    unfold exitAngle
    simp only [selV_eq _ idx j e h]
    have hc : ∀ p : V3, centred D p = V3.sub p ⟨0, 0, D / 2⟩ := fun p => by simp [centred, V3.sub]
    simp only [hc]
    exact exit_angle hR hin.1 hin.2

/-- Every restart position is a point of the closed ball. -/
theorem restart_inside {D : ℝ} (hD : 0 < D) {pos : Fin (nev + 1) → Fin nt → V3} {dir : Fin nev → Fin nt → V3}
    (h0 : ∀ j, (V3.sub (pos 0 j) ⟨0, 0, D / 2⟩).normSq ≤ (D / 2) * (D / 2)) {idx : Fin nt → ℕ}
    (h : ∀ j, idx j = 0 ∨ ∃ e : Fin nev, IsFirst nev (OutsideAfter D pos j) (e.val + 1) ∧ idx j = e.val + 1) :
    ∃ F, restart D pos dir idx = .ok F ∧
      ∀ j, ∃ p : V3, (F j).1 = ofV3 p ∧ (V3.sub p ⟨0, 0, D / 2⟩).normSq ≤ (D / 2) * (D / 2) := by
  have hR : 0 < D / 2 := by linarith
  set R := D / 2 with hRdef
  have hD2 : D = 2 * R := by rw [hRdef]; ring
  have hle : ∀ j, idx j ≤ nev := by
    intro j
    rcases h j with h | ⟨e, -, h⟩
    · omega
    · have := e.isLt; omega
  have hne : ¬ ∃ j, nev < idx j := by
    rintro ⟨j, hj⟩; exact absurd (hle j) (by omega)
  refine ⟨_, by unfold restart; rw [if_neg hne], ?_⟩
  intro j
  rcases h j with hz | ⟨e, he, hj⟩
  · obtain ⟨F, hF, hFj⟩ := C85_stuck_restart_refuted hR pos dir idx hle j hz
    have hF' : restart D pos dir idx = .ok F := by rw [hD2]; exact hF
    unfold restart at hF'
    rw [if_neg hne] at hF'
    injection hF' with hF'
    refine ⟨⟨0, 0, 0⟩, (congrArg Prod.fst (congrFun hF' j)).trans (congrArg Prod.fst hFj), le_of_eq ?_⟩
    simp [V3.sub, V3.normSq, V3.dot]
  · have hin := inside_before (h0 j) he
    rw [← hRdef] at hin
    have hb0 : Bounded (pos e.castSucc j) (10 ^ 20 * R) := by
      have h1 := hin.1
      set p := pos e.castSucc j
      simp only [V3.normSq, V3.dot, V3.sub, sub_zero] at h1
      have key : ∀ a : ℝ, a * a ≤ (2 * R) * (2 * R) → |a| ≤ 10 ^ 20 * R := by
        intro a ha
        have : |a| ≤ 2 * R := abs_le_of_sq_le_sq (by nlinarith) (by linarith)
        nlinarith
      refine ⟨key _ ?_, key _ ?_, ?_⟩
      · nlinarith [mul_self_nonneg p.x, mul_self_nonneg p.y, mul_self_nonneg (p.z - R)]
      · nlinarith [mul_self_nonneg p.x, mul_self_nonneg p.y, mul_self_nonneg (p.z - R)]
      · have : |p.z - R| ≤ R := abs_le_of_sq_le_sq (by
          have := mul_self_nonneg p.x
          have := mul_self_nonneg p.y
          nlinarith) hR.le
        rw [abs_le] at this ⊢
        constructor <;> nlinarith [this.1, this.2]
    have hsel : sel (fun (_ : Fin (nev + 1)) (_ : Fin nt) => R) idx j = R := by
      unfold sel
      rw [dif_pos (by have := e.isLt; omega)]
    have hout := clipV_outside (c := R) hR ⟨hR.le, le_rfl⟩ hin.2
    have hs0 : ∀ p : V3, (⟨fin p.x, fin p.y, fin p.z - fin R⟩ : XV) = ofV3 (V3.sub p ⟨0, 0, R⟩) := fun p => by
      simp [ofV3, finV, V3.sub]
    have hfold : ∀ p : V3, finV p.x p.y p.z = ofV3 p := fun _ => rfl
    simp only [← hRdef, selV_eq _ idx j e hj, hfold, infToLarge_fin hR hb0, hsel]
    have e1 : ∀ p : V3, (⟨(ofV3 p).x, (ofV3 p).y, (ofV3 p).z - fin R⟩ : XV) = ofV3 (V3.sub p ⟨0, 0, R⟩) := hs0
    rw [e1, e1]
    have hfin : ∀ q : V3, (⟨(ofV3 q).x, (ofV3 q).y, (ofV3 q).z + fin R⟩ : XV) = ofV3 (V3.add q ⟨0, 0, R⟩) := fun q => by
      simp [ofV3, finV, V3.add]
    have hback : ∀ q : V3, V3.sub (V3.add q ⟨0, 0, R⟩) ⟨0, 0, R⟩ = q := fun q => by simp [V3.sub, V3.add]
    rcases exit_point hin.1 hout with hf | ⟨q, hq, -, hf⟩
    · refine ⟨V3.add V3.zero ⟨0, 0, R⟩, ?_, ?_⟩
      · rw [hf]; exact hfin _
      · rw [hback]; simp [V3.zero, V3.normSq, V3.dot]; positivity
    · refine ⟨V3.add q ⟨0, 0, R⟩, ?_, ?_⟩
      · rw [hf]; exact hfin _
      · rw [hback]; exact hq.le

end Verif.Props
