import Verif.Model.SphereGonio
import Verif.Props.SphereEstimator
import Verif.Props.Goniometer

namespace Verif.Props
noncomputable section
open Classical XF Verif.Spec Verif.Geometry Verif.Exits Verif.Fresnel Verif.Weights Verif.Restart Verif.SphereRun Verif.Root
open Verif.SphereGonio
open Verif.Geometry (XV)

variable {nev nt num : ℕ}

/-- A photon in a sphere of radius 1: it enters at (3/5, 0, 1/5) along the normal, is scattered at the centre (0, 0, 1), and goes on
by the length `s` in the direction `k`. -/
def fromCentre (k : V3) (s : ℝ) : SphTrajs 1 where
  position := fun i _ => if i = 0 then ⟨3 / 5, 0, 1 / 5⟩ else if i = 1 then ⟨0, 0, 1⟩ else ⟨s * k.x, s * k.y, 1 + s * k.z⟩
  direction := fun i _ => if i = 0 then ⟨-3 / 5, 0, 4 / 5⟩ else k
  weight := fun _ _ => fin 1

theorem centre_exit {k : V3} {s : ℝ} (hk : k.normSq = 1) (hs : 1 < s) (hs' : s ≤ 10) :
    SphereExit 1 (V3.sub ⟨0, 0, 1⟩ ⟨0, 0, 1⟩) (V3.sub ⟨s * k.x, s * k.y, 1 + s * k.z⟩ ⟨0, 0, 1⟩) k k := by
  have hk' : k.x * k.x + k.y * k.y + k.z * k.z = 1 := hk
  refine ⟨one_pos, by norm_num [V3.normSq, V3.dot, V3.sub], ?_, ?_, hk, ⟨s, by linarith, ?_⟩, ⟨1, one_pos, ?_⟩, by rw [hk, one_mul]⟩
  · have e : (V3.sub ⟨s * k.x, s * k.y, 1 + s * k.z⟩ (⟨0, 0, 1⟩ : V3)).normSq = s * s * (k.x * k.x + k.y * k.y + k.z * k.z) := by
      simp only [V3.normSq, V3.dot, V3.sub]; ring
    rw [e, hk']
    nlinarith
  · have hx : |k.x| ≤ 1 := abs_le_one_iff_mul_self_le_one.mpr (by nlinarith [mul_self_nonneg k.y, mul_self_nonneg k.z])
    have hy : |k.y| ≤ 1 := abs_le_one_iff_mul_self_le_one.mpr (by nlinarith [mul_self_nonneg k.x, mul_self_nonneg k.z])
    have hz : |k.z| ≤ 1 := abs_le_one_iff_mul_self_le_one.mpr (by nlinarith [mul_self_nonneg k.x, mul_self_nonneg k.y])
    have : ∀ a : ℝ, |a| ≤ 1 → |s * a| ≤ 10 ^ 20 * 1 := fun a ha => by
      rw [abs_mul, abs_of_pos (by linarith : 0 < s)]
      nlinarith [abs_nonneg a]
    refine ⟨?_, ?_, ?_⟩
    · simpa [V3.sub] using this _ hx
    · simpa [V3.sub] using this _ hy
    · simpa [V3.sub] using this _ hz
  · ext <;> simp [V3.sub, V3.smul]
  · ext <;> simp [V3.sub, V3.smul, V3.add]

theorem centre_first {k : V3} {s : ℝ} (hk : k.normSq = 1) (hs : 1 < s) (hs' : s ≤ 10) :
    IsFirst 2 (OutsideAfter 2 (rowsP 2 (fromCentre k s).position) 0) ((1 : Fin 2).val + 1) := by
  have hx := (centre_exit hk hs hs').outside
  refine ⟨by simp, by simp, ⟨2, by simp, ?_⟩, ?_⟩
  · simp only [rowsP, fromCentre]
    norm_num at hx ⊢
    exact hx
  · intro m h1 h2
    simp only [Fin.val_one] at h2
    have hm : m = 1 := by omega
    subst hm
    rintro ⟨r, hr, h⟩
    have : r = 1 := by ext; simpa using hr
    subst this
    norm_num [rowsP, fromCentre, V3.sub, V3.normSq, V3.dot] at h

theorem centre_events {k : V3} {s : ℝ} (hk : k.normSq = 1) (hs : 1 < s) (hs' : s ≤ 10) {o : Optics} (ho : OpticsOK o) :
    (k.z < 0 → ∀ j, (sphereEvents 2 o 2 (fromCentre k s)).1 j = 2 ∧ (sphereEvents 2 o 2 (fromCentre k s)).2.1 j = 0 ∧
      (sphereEvents 2 o 2 (fromCentre k s)).2.2.1 j = 0 ∧ (sphereEvents 2 o 2 (fromCentre k s)).2.2.2 j = 0) ∧
    (0 < k.z → ∀ j, (sphereEvents 2 o 2 (fromCentre k s)).1 j = 0 ∧ (sphereEvents 2 o 2 (fromCentre k s)).2.1 j = 2 ∧
      (sphereEvents 2 o 2 (fromCentre k s)).2.2.1 j = 0 ∧ (sphereEvents 2 o 2 (fromCentre k s)).2.2.2 j = 0) := by
  have h := C84_sphere_first_exit o.n_tir o.n_medium 2 (rowsP 2 (fromCentre k s).position) (rowsD 2 (fromCentre k s).direction)
    0 1 (centre_first hk hs hs')
  have hx := centre_exit hk hs hs'
  have ht := (C24_sphere_straight_partial hx ho.tir ho.medium (Or.inr (by
    ext <;> simp only [V3.cross, V3.smul, V3.zero] <;> ring))).1
  have e : exitKz (ofV3 (V3.sub (rowsP 2 (fromCentre k s).position (1 : Fin 2).castSucc 0) ⟨0, 0, 2 / 2⟩))
      (ofV3 (V3.sub (rowsP 2 (fromCentre k s).position (1 : Fin 2).succ 0) ⟨0, 0, 2 / 2⟩))
      (ofV3 (rowsD 2 (fromCentre k s).direction 1 0)) 2 o.n_tir o.n_medium = fin k.z := by
    rw [← ht]
    norm_num [rowsP, rowsD, fromCentre]
  simp only [e, fin_lt] at h
  constructor
  · intro hz j
    rw [Subsingleton.elim j 0]
    exact h.1 hz
  · intro hz j
    rw [Subsingleton.elim j 0]
    exact h.2.1 hz

/-- what `shift_traj_tir` makes of it: all z coordinates after the first row change sign -/
theorem centre_shift {k : V3} {s : ℝ} (tir : Fin 1 → ℕ) (h0 : tir 0 = 0) (j : Fin 1) :
    (shifted (fromCentre k s) tir).position 0 j = ⟨3 / 5, 0, 1 / 5⟩ ∧ (shifted (fromCentre k s) tir).position 1 j = ⟨0, 0, -1⟩ ∧
    (shifted (fromCentre k s) tir).position 2 j = ⟨s * k.x, s * k.y, -(1 + s * k.z)⟩ ∧
    (shifted (fromCentre k s) tir).direction 0 j = ⟨-3 / 5, 0, 4 / 5⟩ ∧
    (shifted (fromCentre k s) tir).direction 1 j = ⟨k.x, k.y, -k.z⟩ := by
  rw [Subsingleton.elim j 0]
  have hz : ∀ (col : ℕ → ℝ), col 0 ≠ 0 → selectTirTraj col 0 1 = -col 1 := by
    intro col h
    simp only [selectTirTraj, tirInit, if_true, ne_eq, h, not_false_eq_true, ite_eq_right_iff]
    intro h'; linarith
  refine ⟨?_, ?_, ?_, ?_, ?_⟩
  · simp [shifted, fromCentre, shiftTrajTir, selectTirTraj, tirInit]
  · simp only [shifted, shiftTrajTir, h0]
    rw [hz _ (by norm_num [fromCentre])]
    simp [fromCentre]
  · simp only [shifted, shiftTrajTir, h0]
    rw [selectTirTraj, hz _ (by norm_num [fromCentre])]
    simp only [fromCentre]
    norm_num
    intro h; linarith
  · simp [shifted, fromCentre, shiftTrajTir, selectTirTraj, tirInit]
  · simp only [shifted, shiftTrajTir, h0]
    rw [hz _ (by norm_num [fromCentre])]
    simp [fromCentre]


/-! ## The statements -/

/-- The goniometer `G` counts photon `j`: its entry of the `refl_indices` returned with `return_extra=True` is not 0. -/
def SphereCounts (nev : ℕ) (o : Optics) (D : ℝ) (t : SphTrajs nt) (G : ℝ × ℝ × ℝ) (j : Fin nt) : Prop :=
  countedIndices nev o D t G j ≠ 0

theorem selectTir_flip {col : ℕ → ℝ} {n : ℕ} (h : ∀ i < n, col i ≠ 0) : ∀ i, 0 < i → i ≤ n → selectTirTraj col 0 i = -col i := by
  intro i
  induction i with
  | zero => intro h0; omega
  | succ i ih =>
    intro _ hi
    have hprev : selectTirTraj col 0 i ≠ 0 := by
      rcases Nat.eq_zero_or_pos i with h0 | h0
      · subst h0
        simpa [selectTirTraj, tirInit] using h 0 (by omega)
      · rw [ih h0 (by omega), neg_ne_zero]
        exact h i (by omega)
    rw [selectTirTraj]
    simp only [hprev, ne_eq, not_false_eq_true, if_true]
    split
    · next h0 => linarith
    · rfl

/-- C142.  Which photons a goniometer counts, for a sphere: a photon that is reflected at event `e+1` (with z coordinates and
directions that are not exactly zero) is counted if and only if its direction, refracted *at the horizontal plane z = 0*, takes
it from the point where its step meets that plane to the detector.  (The surface of the sphere plays no part: see
`C142_direction_refuted`.) -/
theorem C142_counted_at_plane_partial {o : Optics} (ho : OpticsOK o) (hns : 0 < o.n_sample) {D : ℝ} {t : SphTrajs nt} {j : Fin nt} {e : Fin nev}
    (hrefl : (sphereEvents nev o D t).1 j = e.val + 1) (hz : ∀ i ≤ e.val, (t.position i j).z ≠ 0)
    (hkz : ∀ i ≤ e.val, (t.direction i j).z ≠ 0) (he : 0 < e.val) (hunit : (t.direction e j).normSq = 1) {θ L d : ℝ}
    (hθ : θ < Real.pi / 2) {plane : V3} (hpz : plane.z = 0)
    (hp : ∃ s, plane = V3.add (t.position (e + 1) j) (V3.smul s (t.direction e j))) (hin : plane.normSq < d ^ 2 + (L / 2) ^ 2) :
    SphereCounts nev o D t (θ, L, d) j ↔
      ((t.direction e j).x ≠ 0 ∨ (t.direction e j).y ≠ 0) ∧
      ∃ k2 : V3, RefractedAt o.n_sample o.n_medium ⟨0, 0, -1⟩ ⟨(t.direction e j).x, (t.direction e j).y, -|(t.direction e j).z|⟩ k2 ∧
        HitsDetector plane k2 θ L d := by
  have htir : (sphereEvents nev o D t).2.2.2 j = 0 := by
    rcases sphere_cases o.n_tir o.n_medium D (rowsP nev t.position) (rowsD nev t.direction) j with h | ⟨e', -, h | h | h⟩
    · exact h.2.2.2
    · exact h.2.2.2
    · exact h.2.2.2
    · have := h.1.symm.trans hrefl; omega
  set s := afterShift nev o D t with hs
  have hpos : s.position (e + 1) j = ⟨(t.position (e + 1) j).x, (t.position (e + 1) j).y, -(t.position (e + 1) j).z⟩ := by
    simp only [hs, afterShift, shifted, htir, shiftTrajTir]
    rw [selectTir_flip (n := e.val + 1) (fun i hi => hz i (by omega)) _ (by omega) le_rfl]
  have hdir : s.direction e j = ⟨(t.direction e j).x, (t.direction e j).y, -(t.direction e j).z⟩ := by
    simp only [hs, afterShift, shifted, htir, shiftTrajTir]
    rw [selectTir_flip (n := e.val + 1) (fun i hi => hkz i (by omega)) _ he (by omega)]
  have hselD : evRow (nev := nev) (fun e j => (s.direction e j).x) (fun e j => (s.direction e j).y) (fun e j => (s.direction e j).z)
      (sphereEvents nev o D t).1 j = s.direction e j := by
    have := selV_eq (fun (e : Fin nev) j => s.direction e j) (sphereEvents nev o D t).1 j e hrefl
    exact this
  have hselP : evRow (nev := nev) (fun e j => (s.position (e.succ : Fin (nev + 1)) j).x) (fun e j => (s.position (e.succ : Fin (nev + 1)) j).y)
      (fun e j => (s.position (e.succ : Fin (nev + 1)) j).z) (sphereEvents nev o D t).1 j = s.position (e + 1) j := by
    have := selV_eq (fun (e : Fin nev) j => s.position (e.succ : Fin (nev + 1)) j) (sphereEvents nev o D t).1 j e hrefl
    simp only [Fin.val_succ] at this ⊢
    exact this
  have hidx : 0 < (sphereEvents nev o D t).1 j := by omega
  obtain ⟨h1, h2⟩ := C26_detected_iff (nev := nev) (sphereEvents nev o D t).1 (fun e j => (s.position e j).x)
    (fun e j => (s.position e j).y) (fun e j => (s.position e j).z) (fun e j => (s.direction e j).x) (fun e j => (s.direction e j).y)
    (fun e j => (s.direction e j).z) (θ := θ) (L := L) (D := d) hns ho.medium hθ j hidx
    (by
      rw [hselD, hdir]
      have : (t.direction e j).x * (t.direction e j).x + (t.direction e j).y * (t.direction e j).y +
        (t.direction e j).z * (t.direction e j).z = 1 := hunit
      simp only [V3.normSq, V3.dot]
      linarith)
    (by rw [hselD, hdir]; simpa using hkz e le_rfl)
  have h3 := h2 _ _ rfl rfl plane hpz (by
    obtain ⟨u, hu⟩ := hp
    refine ⟨u, ?_⟩
    rw [hselD, hselP, hpos, hdir]
    have hz' : (t.position (e + 1) j).z + u * (t.direction e j).z = 0 := by rw [← hpz, hu]; rfl
    rw [hu]
    ext
    · rfl
    · rfl
    · simp only [V3.add, V3.smul]; linarith) hin
  rw [hselD, hdir] at h3
  simp only [abs_neg] at h3
  rw [← h3]
  unfold SphereCounts countedIndices
  constructor
  · intro h
    exact h1.resolve_left h
  · intro h h0
    have := h.symm.trans h0
    omega

/-- zero, or not a number -/
def ZeroOrNaN (x : XF) : Prop := x = fin 0 ∨ x = nan

theorem ZeroOrNaN.add {x y : XF} (hx : ZeroOrNaN x) (hy : ZeroOrNaN y) : ZeroOrNaN (x + y) := by
  rcases hx with rfl | rfl
  · rcases hy with rfl | rfl
    · exact Or.inl (by simp)
    · exact Or.inr rfl
  · exact Or.inr (nan_add _)

theorem ZeroOrNaN.neg {x : XF} (hx : ZeroOrNaN x) : ZeroOrNaN (-x) := by
  rcases hx with rfl | rfl
  · exact Or.inl (by simp)
  · exact Or.inr rfl

theorem zero_mul_xf (y : XF) : ZeroOrNaN (fin 0 * y) := by
  cases y with
  | fin r => exact Or.inl (by simp)
  | pinf => exact Or.inr (by show infOfSign 0 = nan; simp [infOfSign])
  | ninf => exact Or.inr (by show infOfSign (-0) = nan; simp [infOfSign])
  | nan => exact Or.inr rfl

theorem mul_zero_xf (y : XF) : ZeroOrNaN (y * fin 0) := by
  cases y with
  | fin r => exact Or.inl (by simp)
  | pinf => exact Or.inr (by show infOfSign 0 = nan; simp [infOfSign])
  | ninf => exact Or.inr (by show infOfSign (-0) = nan; simp [infOfSign])
  | nan => exact Or.inr rfl

theorem ZeroOrNaN.mul {x : XF} (hx : ZeroOrNaN x) (y : XF) : ZeroOrNaN (x * y) := by
  rcases hx with rfl | rfl
  · exact zero_mul_xf y
  · exact Or.inr (nan_mul _)

theorem ZeroOrNaN.div {x : XF} (hx : ZeroOrNaN x) {n : ℕ} (hn : 0 < n) : ZeroOrNaN (x / fin n) := by
  rcases hx with rfl | rfl
  · exact Or.inl (by rw [fin_div _ (by exact_mod_cast hn.ne'), zero_div])
  · exact Or.inr rfl

theorem ZeroOrNaN.sum {f : Fin nt → XF} (h : ∀ j, ZeroOrNaN (f j)) : ZeroOrNaN (∑ j, f j) := by
  apply Finset.sum_induction f ZeroOrNaN (fun _ _ => ZeroOrNaN.add) (Or.inl rfl)
  exact fun j _ => h j

/-- C142.  Without re-running the light sent back at the surface, a goniometer that counts no photon reads zero (or the result is
NaN): for every bundle of trajectories and all arguments, whenever the call returns. -/
theorem C142_no_photon_no_reading {D : ℝ} (m : Medium num) (draws : ℕ → Draws nt num) {max_stuck : ℝ} (on : Optics) {o : Optics}
    {maxDepth : ℕ} {t : SphTrajs nt} {G : ℝ × ℝ × ℝ} (hno : ∀ j, ¬ SphereCounts nev o D t G j) {rt : RT nt}
    (hrt : calcSphereGonio D m draws false max_stuck on o maxDepth nev G t = .ok rt) :
    (rt.R = fin 0 ∨ rt.R = nan) ∧ ∀ j, rt.reflPer j = fin 0 ∨ rt.reflPer j = nan := by
  rcases Nat.eq_zero_or_pos nt with h0 | hnt
  · subst h0
    unfold calcSphereGonio at hrt
    cases hl : level o (gonioGeometry nev o D t G) none false (fun (e : Fin nev) j => t.weight e j) with
    | error e => rw [hl] at hrt; simp [Bind.bind, Except.bind] at hrt
    | ok l =>
      rw [hl] at hrt
      simp [Bind.bind, Except.bind, Pure.pure, Except.pure] at hrt
      subst hrt
      exact ⟨Or.inl (by simp [distribute]; rfl), fun j => j.elim0⟩
  have hno' : ∀ j, (gonioGeometry nev o D t G).ri j = 0 := fun j => by
    exact not_not.mp (hno j)
  unfold calcSphereGonio at hrt
  unfold level at hrt
  cases h1 : incPassFrac false (gonioGeometry nev o D t G).thInc o.n_medium o.n_front o.n_tir with
  | error e => rw [h1] at hrt; simp [Bind.bind, Except.bind] at hrt
  | ok inc =>
    rw [h1] at hrt
    simp only [Bind.bind, Except.bind, Pure.pure, Except.pure] at hrt
    unfold fresnelCorrectExit at hrt
    cases h2 : fresnelPassFrac (gonioGeometry nev o D t G).thRefl o.n_tir o.n_front o.n_medium with
    | error e => rw [h2] at hrt; simp [Bind.bind, Except.bind] at hrt
    | ok pR =>
      rw [h2] at hrt
      cases h3 : fresnelPassFrac (gonioGeometry nev o D t G).thTrans o.n_tir o.n_back o.n_medium with
      | error e => rw [h3] at hrt; simp [Bind.bind, Except.bind] at hrt
      | ok pT =>
        rw [h3] at hrt
        simp only [Bind.bind, Except.bind, Pure.pure, Except.pure, Bool.false_eq_true, false_and, if_false] at hrt
        injection hrt with hrt
        have hz : ∀ j, ZeroOrNaN (inc j * sel (fun (e : Fin nev) j => t.weight e j) (gonioGeometry nev o D t G).ri j) := fun j => by
          rw [sel_zero _ _ j (hno' j)]
          exact mul_zero_xf _
        have hw : ∀ j, ZeroOrNaN (rt.reflPer j) := by
          intro j
          rw [← hrt]
          simp only [distribute, if_true, calcOutcomeWeights, detectCorrectedTraj]
          refine ZeroOrNaN.div (ZeroOrNaN.add (ZeroOrNaN.add ?_ ?_) (Or.inl rfl)) hnt
          · unfold detectCorrect
            dsimp only
            generalize hth : (if (refraction1 ((gonioGeometry nev o D t G).thRefl j) (fin o.n_sample) (fin o.n_medium)).isNaN then pinf
              else refraction1 ((gonioGeometry nev o D t G).thRefl j) (fin o.n_sample) (fin o.n_medium)) = th
            split
            · exact Or.inl rfl
            · exact (hz j).mul _
          · exact (((hz j).add ((hz j).mul _).neg).mul _).mul _
        refine ⟨?_, hw⟩
        have : rt.R = ∑ j, rt.reflPer j := by rw [← hrt]; rfl
        rw [this]
        exact ZeroOrNaN.sum hw

/-- C142.  A detector of no extent counts no photon. -/
theorem C142_point_detector (D : ℝ) (o : Optics) (t : SphTrajs nt) (θ d : ℝ) (j : Fin nt) :
    ¬ SphereCounts nev o D t (θ, 0, d) j := by
  unfold SphereCounts countedIndices calcIndicesDetected
  simp only [ne_eq, not_not]
  rw [if_neg]
  rintro ⟨-, ⟨h1, h2⟩, -⟩
  revert h1 h2
  generalize (hemispherePoint _ _ θ 0 d).y = q
  intro h1 h2
  cases q with
  | fin q => rw [fin_lt] at h1 h2; linarith
  | pinf => exact (nomatch h1)
  | ninf => exact (nomatch h2)
  | nan => exact (nomatch h1)

/-- the photon enters along the normal -/
theorem centre_entry {t : SphTrajs 1} (hp : ∀ j, t.position 0 j = ⟨3 / 5, 0, 1 / 5⟩) (hk : ∀ j, t.direction 0 j = ⟨-3 / 5, 0, 4 / 5⟩)
    (j : Fin 1) : entryAngle 2 t j = fin 0 := by
  have e1 : centred 2 (t.position 0 j) = (⟨3 / 5, 0, -4 / 5⟩ : V3) := by rw [hp]; norm_num [centred]
  have := entry_angle (R := 1) one_pos (p := ⟨3 / 5, 0, -4 / 5⟩) (k := ⟨-3 / 5, 0, 4 / 5⟩) (by norm_num [V3.normSq, V3.dot])
    (by norm_num [V3.normSq, V3.dot])
  unfold entryAngle
  rw [e1, hk]
  have e2 : V3.dot (V3.smul (-1 / 1) (⟨3 / 5, 0, -4 / 5⟩ : V3)) ⟨-3 / 5, 0, 4 / 5⟩ = 1 := by norm_num [V3.dot, V3.smul]
  rw [e2, Real.arccos_one] at this
  exact this

theorem centre_gen (k : V3) (s : ℝ) : GenOK 2 0 (fun _ => 1) (fromCentre k s) := by
  refine ⟨fun j => ?_, fun _ _ => 1, fun i j => ?_, fun i j => by norm_num, fun _ _ _ => rfl⟩
  · norm_num [fromCentre, V3.sub, V3.normSq, V3.dot]
  · simp [fromCentre]

/-- without the detector the call returns numbers -/
theorem centre_plain (k : V3) (s : ℝ) {o : Optics} (ho : OpticsOK o) (m : Medium num) (draws : ℕ → Draws 1 num) (max_stuck : ℝ)
    (on : Optics) (maxDepth : ℕ) :
    ∃ rt R T, calcSphere 2 m draws false max_stuck on o maxDepth 0 2 (fromCentre k s) = .ok rt ∧ rt.R = fin R ∧ rt.T = fin T ∧
      0 ≤ R ∧ 0 ≤ T := by
  obtain ⟨l, c, ir, hl, hL, hg, hir, -⟩ := sphere_level (mu := 0) two_pos ho 2 (t := fromCentre k s) (ω := fun _ => 1)
    (fun j => by norm_num) (centre_gen k s) false (fun _ j => ⟨0, centre_entry (fun _ => rfl) (fun _ => rfl) j, le_rfl, by positivity⟩)
  obtain ⟨R, T, hR, hT, hR0, hT0, -⟩ := distribute_sphere_fin one_pos hL hg (fun j => (hir j).1)
  refine ⟨_, R, T, ?_, hR, hT, hR0, hT0⟩
  rw [calcSphere]
  simp only [lt_irrefl, decide_false, hl, bind, Except.bind, Bool.false_eq_true, false_and, dite_false, pure, Except.pure]

/-- an angle above 90 degrees is refused by the Fresnel functions -/
theorem passFrac_error {n : ℕ} {θ : Fin n → XF} {nb na : ℝ} {ni : Option ℝ} (h : ∃ i, (fin (Real.pi / 2) : XF) < θ i) :
    fresnelPassFrac θ nb ni na = .error PyErr.valueError := by
  have hf : ∀ m, fresnelReflection nb m θ = .error PyErr.valueError := by
    intro m
    unfold fresnelReflection
    exact if_pos h
  unfold fresnelPassFrac fresnelTransmission
  simp only [hf, bind, Except.bind]

/-- the photon of `C142_error_refuted` -/
abbrev bounced : SphTrajs 1 := fromCentre ⟨5 / 13, 0, -12 / 13⟩ (13 / 10)

/-- a sphere that does not differ in index from its surroundings -/
def matchedOptics (detection_angle : ℝ) : Optics :=
  { n_medium := 1, n_sample := 1, n_tir := 1, n_front := none, n_back := none, detection_angle := detection_angle }

theorem matched_ok (a : ℝ) : OpticsOK (matchedOptics a) :=
  ⟨one_pos, one_pos, fun _ h => (nomatch h), fun _ h => (nomatch h)⟩

theorem bounced_counted (a : ℝ) (j : Fin 1) : countedIndices 2 (matchedOptics a) 2 bounced (0, 22, 5) j = 2 := by
  rw [Subsingleton.elim j 0]
  have hev := (centre_events (k := ⟨5 / 13, 0, -12 / 13⟩) (s := 13 / 10) (by norm_num [V3.normSq, V3.dot]) (by norm_num) (by norm_num)
    (matched_ok a)).1 (by norm_num) 0
  have hc : SphereCounts 2 (matchedOptics a) 2 bounced (0, 22, 5) 0 := by
    rw [C142_counted_at_plane_partial (matched_ok a) one_pos (e := 1) (plane := ⟨5 / 12, 0, 0⟩) hev.1]
    · refine ⟨Or.inl (by norm_num [bounced, fromCentre]), ⟨5 / 13, 0, -12 / 13⟩, ?_, 143 / 12, ⟨5, 0, -11⟩, by norm_num, ?_, ?_, ?_, ?_, ?_⟩
      · have habs : |(-12 / 13 : ℝ)| = 12 / 13 := by norm_num [abs_of_neg]
        refine ⟨by norm_num [V3.normSq, V3.dot], by norm_num [V3.dot], ?_⟩
        ext <;> norm_num [V3.cross, V3.smul, bounced, fromCentre, matchedOptics, habs]
      · ext <;> norm_num [V3.add, V3.smul]
      · norm_num [V3.normSq, V3.dot]
      all_goals norm_num [abs_lt]
    · intro i hi
      have : i = 0 ∨ i = 1 := by have : i ≤ 1 := hi; omega
      rcases this with rfl | rfl <;> norm_num [bounced, fromCentre]
    · intro i hi
      have : i = 0 ∨ i = 1 := by have : i ≤ 1 := hi; omega
      rcases this with rfl | rfl <;> norm_num [bounced, fromCentre]
    · norm_num
    · norm_num [bounced, fromCentre, V3.normSq, V3.dot]
    · positivity
    · rfl
    · refine ⟨-13 / 60, ?_⟩
      ext <;> norm_num [bounced, fromCentre, V3.add, V3.smul]
    · norm_num [V3.normSq, V3.dot]
  have h2 : countedIndices 2 (matchedOptics a) 2 bounced (0, 22, 5) 0 = 0 ∨ countedIndices 2 (matchedOptics a) 2 bounced (0, 22, 5) 0 =
      (sphereEvents 2 (matchedOptics a) 2 bounced).1 0 := by
    unfold countedIndices calcIndicesDetected
    simp only
    split
    · exact Or.inr rfl
    · exact Or.inl rfl
  exact (h2.resolve_left hc).trans hev.1

/-- C142, refuted: with a goniometer `calc_refl_trans` can fail for a sphere, although it returns numbers without one.  The photon
comes back from the centre of an index-matched sphere and hits the detector; `shift_traj_tir` has turned its path upside down, so
that its "exit angle" is obtuse and the Fresnel functions raise ValueError. -/
theorem C142_error_refuted (a : ℝ) (m : Medium num) (draws : ℕ → Draws 1 num) (run : Bool) (max_stuck : ℝ) (on : Optics)
    (maxDepth : ℕ) :
    calcSphereGonio 2 m draws run max_stuck on (matchedOptics a) maxDepth 2 (0, 22, 5) bounced = .error PyErr.valueError ∧
    ∃ rt R T, calcSphere 2 m draws false max_stuck on (matchedOptics a) maxDepth 0 2 bounced = .ok rt ∧ rt.R = fin R ∧
      rt.T = fin T ∧ 0 ≤ R ∧ 0 ≤ T := by
  refine ⟨?_, centre_plain _ _ (matched_ok a) m draws max_stuck on maxDepth⟩
  have hev := (centre_events (k := ⟨5 / 13, 0, -12 / 13⟩) (s := 13 / 10) (by norm_num [V3.normSq, V3.dot]) (by norm_num) (by norm_num)
    (matched_ok a)).1 (by norm_num) 0
  have hsh := centre_shift (k := ⟨5 / 13, 0, -12 / 13⟩) (s := 13 / 10) _ hev.2.2.2
  have hri := bounced_counted a
  have hobt : (fin (Real.pi / 2) : XF) < (gonioGeometry 2 (matchedOptics a) 2 bounced (0, 22, 5)).thRefl 0 := by
    show (fin (Real.pi / 2) : XF) < exitAngle 2 2 (afterShift 2 (matchedOptics a) 2 bounced).position
      (countedIndices 2 (matchedOptics a) 2 bounced (0, 22, 5)) 0
    unfold exitAngle
    have s0 := selV_eq (fun (e : Fin 2) j => centred 2 (rowsP 2 (afterShift 2 (matchedOptics a) 2 bounced).position e.castSucc j))
      (countedIndices 2 (matchedOptics a) 2 bounced (0, 22, 5)) 0 1 (hri 0)
    have s1 := selV_eq (fun (e : Fin 2) j => centred 2 (rowsP 2 (afterShift 2 (matchedOptics a) 2 bounced).position e.succ j))
      (countedIndices 2 (matchedOptics a) 2 bounced (0, 22, 5)) 0 1 (hri 0)
    have e0 : centred 2 (rowsP 2 (afterShift 2 (matchedOptics a) 2 bounced).position (1 : Fin 2).castSucc 0) = (⟨0, 0, -2⟩ : V3) := by
      show centred 2 ((shifted (fromCentre _ _) _).position 1 0) = _
      rw [(hsh 0).2.1]; norm_num [centred]
    have e1 : centred 2 (rowsP 2 (afterShift 2 (matchedOptics a) 2 bounced).position (1 : Fin 2).succ 0) = (⟨1 / 2, 0, -4 / 5⟩ : V3) := by
      show centred 2 ((shifted (fromCentre _ _) _).position 2 0) = _
      rw [(hsh 0).2.2.1]; norm_num [centred]
    rw [e0] at s0
    rw [e1] at s1
    simp only [s0, s1]
    set q0 := Real.sqrt (276 / 169) with hq0
    have hq : q0 * q0 = 276 / 169 := Real.mul_self_sqrt (by norm_num)
    have hqpos : 0 < q0 := Real.sqrt_pos.mpr (by norm_num)
    have hw : V3.sub (⟨1 / 2, 0, -4 / 5⟩ : V3) ⟨0, 0, -2⟩ = ⟨1 / 2, 0, 6 / 5⟩ := by norm_num [V3.sub]
    have hfind := find_eq (p0 := ⟨0, 0, -2⟩) (p1 := ⟨1 / 2, 0, -4 / 5⟩) (R := 2 / 2) (d := 13 / 10) (s := q0) (by norm_num)
      (by rw [hw]; norm_num [V3.normSq, V3.dot]) hqpos.le (by rw [hq, hw]; norm_num [V3.normSq, V3.dot])
    have hb : V3.dot (V3.sub (⟨1 / 2, 0, -4 / 5⟩ : V3) ⟨0, 0, -2⟩) ⟨0, 0, -2⟩ = -12 / 5 := by rw [hw]; norm_num [V3.dot]
    simp only [hb] at hfind
    rw [if_pos (by nlinarith)] at hfind
    set tm : ℝ := (-(2 * (-12 / 5 / (13 / 10))) - q0) / 2 with htm
    have htm' : tm = 24 / 13 - q0 / 2 := by rw [htm]; ring
    set q : V3 := V3.add ⟨0, 0, -2⟩ (V3.smul (tm / (13 / 10)) (V3.sub ⟨1 / 2, 0, -4 / 5⟩ ⟨0, 0, -2⟩)) with hqd
    have hqe : q = ⟨tm * (5 / 13), 0, -2 + tm * (12 / 13)⟩ := by
      rw [hqd, hw]; ext <;> simp only [V3.add, V3.smul] <;> ring
    have hqn : q.normSq = 2 / 2 * (2 / 2) := by
      rw [hqe, htm']; simp only [V3.normSq, V3.dot]; nlinarith
    have hne : V3.sub (⟨1 / 2, 0, -4 / 5⟩ : V3) ⟨0, 0, -2⟩ ≠ V3.zero := by
      rw [hw]; intro h; have := congrArg V3.x h; norm_num [V3.zero] at this
    have hang := getAnglesSphere_eq (R := 2 / 2) (by norm_num) (p0 := ⟨0, 0, -2⟩) (p1 := ⟨1 / 2, 0, -4 / 5⟩)
      (by norm_num [Bounded]) (by norm_num [Bounded]) hne hqn hfind
    have hang' := congrArg Prod.fst hang
    have hnorm : (V3.sub (⟨1 / 2, 0, -4 / 5⟩ : V3) ⟨0, 0, -2⟩).norm = 13 / 10 := by
      apply norm_eq_of_normSq (by norm_num)
      rw [hw]; norm_num [V3.normSq, V3.dot]
    show (fin (Real.pi / 2) : XF) < (getAnglesSphere (ofV3 ⟨0, 0, -2⟩) (ofV3 ⟨1 / 2, 0, -4 / 5⟩) (2 / 2)).1
    rw [hang', hnorm, hw, hqe, fin_lt, ← not_le, Real.arccos_le_pi_div_two, not_le]
    simp only [V3.dot, V3.smul]
    rw [htm']
    nlinarith
  unfold calcSphereGonio level
  have hinc : incPassFrac false (gonioGeometry 2 (matchedOptics a) 2 bounced (0, 22, 5)).thInc (matchedOptics a).n_medium
      (matchedOptics a).n_front (matchedOptics a).n_tir = .ok (fun j => fin (passFrac (matchedOptics a).n_medium
      (matchedOptics a).n_front (matchedOptics a).n_tir 0)) := by
    have e : (gonioGeometry 2 (matchedOptics a) 2 bounced (0, 22, 5)).thInc = fun j => fin 0 :=
      funext fun j => centre_entry (fun j => (hsh j).1) (fun j => (hsh j).2.2.2.1) j
    simp only [incPassFrac, Bool.false_eq_true, if_false, e]
    exact fresnelPassFrac_fin (fun _ => 0) _ (matched_ok a).medium (matched_ok a).front (fun _ => ⟨le_rfl, by positivity⟩)
  rw [hinc]
  simp only [Bind.bind, Except.bind, fresnelCorrectExit, passFrac_error ⟨0, hobt⟩]

theorem getAngles_miss {p0 p1 : V3} {R : ℝ} (h0 : Bounded p0 (10 ^ 20 * R)) (h1 : Bounded p1 (10 ^ 20 * R))
    (h : ∀ t : ℝ, R * R < (V3.add p0 (V3.smul t (V3.sub p1 p0))).normSq) :
    (getAnglesSphere (ofV3 p0) (ofV3 p1) R).1 = fin (Real.pi / 2) := by
  unfold getAnglesSphere
  rw [infToLarge_id h0 h1]
  simp only
  rw [C21_sphere_miss (Or.inr h)]
  have h0 : ofV3 V3.zero = finV 0 0 0 := rfl
  simp only [h0, normalizeCol_zero, nan_mul, nan_add, nanToNum_nan]
  rw [arccos_of_mem (by norm_num) (by norm_num), Real.arccos_zero]

theorem exitAngle_none {D : ℝ} (hD : 0 < D) {pos : ℕ → Fin nt → V3} {idx : Fin nt → ℕ} {j : Fin nt} (h : idx j = 0) :
    exitAngle nev D pos idx j = fin (Real.pi / 2) := by
  have hz : ∀ a : Fin nev → Fin nt → V3, selV a idx j = V3.zero := fun a => by
    simp only [selV, sel_zero _ idx j h]; rfl
  unfold exitAngle
  simp only [hz]
  exact congrArg Prod.fst (C27_sphere_no_event (D / 2) (by linarith))

theorem passFrac_one {θ : ℝ} (h0 : 0 ≤ θ) (h : θ < Real.pi / 2) : passFrac 1 none 1 θ = 1 / (1 + EPS) := by
  unfold passFrac
  simp only [Option.getD_none, thetaInside_same one_pos h0 h.le, (rMean_same one_pos h0 h).1, (rMean_same one_pos h0 h).2]
  norm_num

theorem passFrac_grazing : passFrac 1 none 1 (Real.pi / 2) = 0 := by
  unfold passFrac
  simp only [Option.getD_none, grazing_eq_one.1, grazing_eq_one.2]
  norm_num

/-- transmittance of one transmitted photon that enters an index-matched sphere along the normal -/
theorem one_transmitted {g : Weights.Geometry 1} {θ : ℝ} (h0 : 0 ≤ θ) (h1 : θ ≤ Real.pi / 2) (hri : ∀ j, g.ri j = 0)
    (hti : ∀ j, g.ti j = 2) (hsi : ∀ j, g.si j = 0) (hin : ∀ j, g.thInc j = fin 0) (hr : ∀ j, g.thRefl j = fin (Real.pi / 2))
    (ht : ∀ j, g.thTrans j = fin θ) (det : Bool) :
    ∃ l, level (matchedOptics (Real.pi / 2)) g none false (fun (_ : Fin 2) _ => fin 1) = .ok l ∧
      (distribute l.exit l.det l.out.stuck .sphere det).T = fin (1 / (1 + EPS) * (1 + passFrac 1 none 1 θ) / 2) := by
  have hp1 : (1 : ℝ) / (1 + EPS) ≤ 1 := by rw [div_le_one (by linarith [EPS_pos])]; linarith [EPS_pos]
  have hp0 : 0 < (1 : ℝ) / (1 + EPS) := by have := EPS_pos; positivity
  obtain ⟨ir, hir, -, -⟩ := incReflIs_exists (matchedOptics (Real.pi / 2)) g none (fun _ => 1 / (1 + EPS)) (fun _ => hp1)
  obtain ⟨l, hl, hL⟩ := level_fin (matchedOptics (Real.pi / 2)) g none false (fun (_ : Fin 2) _ => 1) (fun _ => 1 / (1 + EPS))
    (fun _ => Real.pi / 2) (fun _ => θ) ir one_pos one_pos (fun _ h => (nomatch h)) (fun _ h => (nomatch h))
    (by
      have e : g.thInc = fun _ => fin 0 := funext hin
      simp only [incPassFrac, Bool.false_eq_true, if_false, e]
      rw [fresnelPassFrac_fin (fun _ => 0) _ (matched_ok _).medium (matched_ok _).front (fun _ => ⟨le_rfl, by positivity⟩)]
      simp only [matchedOptics, passFrac_one le_rfl (by positivity : (0 : ℝ) < Real.pi / 2)])
    (funext hr) (funext ht) (fun _ => ⟨by positivity, le_rfl⟩) (fun _ => ⟨h0, h1⟩) hir
  refine ⟨l, hl, ?_⟩
  set c := shadow (matchedOptics (Real.pi / 2)) g (fun (_ : Fin 2) _ => 1) (fun _ => 1 / (1 + EPS)) (fun _ => Real.pi / 2) (fun _ => θ) with hc
  have ct : ∀ j, c.t j = 1 / (1 + EPS) := fun j => by
    simp only [hc, shadow, sel, hti j]; norm_num
  have cs : ∀ j, c.s j = 0 := fun j => by
    simp only [hc, shadow, sel_zero _ g.si j (hsi j), mul_zero]
  have cr : ∀ j, c.r j = 0 := fun j => by
    simp only [hc, shadow, sel_zero _ g.ri j (hri j), mul_zero]
  have cPt : ∀ j, c.Pt j = 1 / (1 + EPS) * passFrac 1 none 1 θ := fun j => by
    rw [RIn.Pt, ct]; rfl
  have cdt : ∀ j, c.dt 1 1 (Real.pi / 2) j = c.Pt j := fun j => by
    rw [cPt]
    show dcR 1 1 (Real.pi / 2) θ (c.Pt j) = _
    rw [cPt]
    exact dcR_full one_pos le_rfl one_pos (fun _ h => (nomatch h)) h0 h1
  have cfr : ∀ j, c.fr j = 0 := fun j => by rw [RIn.fr, RIn.Pr, cr]; ring
  have ctdf : c.tdf 1 1 (Real.pi / 2) = 1 := by
    unfold RIn.tdf
    simp only [cdt]
    exact div_self (RIn.maxEPS_pos _).ne'
  have htr := hL.trans
  have htd := hL.tdf
  simp only [matchedOptics] at htr htd
  simp only [distribute, hL.reflFresnel, hL.transFresnel, hL.stuck, htr, htd, ctdf, cdt, cfr, cs, fin_mul, fin_add, Nat.cast_one,
    fin_div _ one_ne_zero, RIn.ft, ct, cPt, Finset.univ_unique, Finset.sum_singleton, fin_inj]
  ring

/-- C142, refuted: a goniometer (whatever it is, and although it does not see this photon) changes the transmittance of a sphere.
The photon goes from the centre of an index-matched sphere forwards, (0, 4/5, 3/5), and leaves along the normal; `shift_traj_tir`
has turned its path upside down, the line misses the sphere, the angle becomes 90 degrees, and all of its light counts as sent
back. -/
theorem C142_transmittance_refuted (m : Medium num) (draws : ℕ → Draws 1 num) (max_stuck : ℝ) (on : Optics) (maxDepth : ℕ)
    (G : ℝ × ℝ × ℝ) :
    ∃ rt rt' T T', calcSphere 2 m draws false max_stuck on (matchedOptics (Real.pi / 2)) maxDepth 0 2 (fromCentre ⟨0, 4 / 5, 3 / 5⟩ 5) = .ok rt ∧
      calcSphereGonio 2 m draws false max_stuck on (matchedOptics (Real.pi / 2)) maxDepth 2 G (fromCentre ⟨0, 4 / 5, 3 / 5⟩ 5) = .ok rt' ∧
      rt.T = fin T ∧ rt'.T = fin T' ∧ T' < 51 / 100 * T := by
  set t := fromCentre ⟨0, 4 / 5, 3 / 5⟩ 5 with ht
  set o := matchedOptics (Real.pi / 2) with ho
  have hk : (⟨0, 4 / 5, 3 / 5⟩ : V3).normSq = 1 := by norm_num [V3.normSq, V3.dot]
  have hev := (centre_events hk (s := 5) (by norm_num) (by norm_num) (matched_ok (Real.pi / 2))).2 (by norm_num)
  have hsh := centre_shift (k := ⟨0, 4 / 5, 3 / 5⟩) (s := 5) (sphereEvents 2 o 2 t).2.2.2 (hev 0).2.2.2
  have hri : ∀ j, countedIndices 2 o 2 t G j = 0 := fun j => by
    unfold countedIndices calcIndicesDetected
    simp only
    split
    · exact (hev j).1
    · rfl
  -- without the detector
  have hang : ∀ j, (sphereGeometry 2 o 2 t).thTrans j = fin 0 := fun j => by
    show exitAngle 2 2 t.position (sphereEvents 2 o 2 t).2.1 j = fin 0
    unfold exitAngle
    have s0 := selV_eq (fun (e : Fin 2) j => centred 2 (rowsP 2 t.position e.castSucc j)) (sphereEvents 2 o 2 t).2.1 j 1 (hev j).2.1
    have s1 := selV_eq (fun (e : Fin 2) j => centred 2 (rowsP 2 t.position e.succ j)) (sphereEvents 2 o 2 t).2.1 j 1 (hev j).2.1
    have e0 : centred 2 (rowsP 2 t.position (1 : Fin 2).castSucc j) = (⟨0, 0, 0⟩ : V3) := by
      norm_num [centred, rowsP, ht, fromCentre]
    have e1 : centred 2 (rowsP 2 t.position (1 : Fin 2).succ j) = (⟨0, 4, 3⟩ : V3) := by
      norm_num [centred, rowsP, ht, fromCentre]
    rw [e0] at s0
    rw [e1] at s1
    simp only [s0, s1]
    have hw : V3.sub (⟨0, 4, 3⟩ : V3) ⟨0, 0, 0⟩ = ⟨0, 4, 3⟩ := by norm_num [V3.sub]
    have hfind := find_eq (p0 := ⟨0, 0, 0⟩) (p1 := ⟨0, 4, 3⟩) (R := 2 / 2) (d := 5) (s := 2) (by norm_num)
      (by rw [hw]; norm_num [V3.normSq, V3.dot]) (by norm_num) (by rw [hw]; norm_num [V3.normSq, V3.dot])
    have hb : V3.dot (V3.sub (⟨0, 4, 3⟩ : V3) ⟨0, 0, 0⟩) ⟨0, 0, 0⟩ = 0 := by rw [hw]; norm_num [V3.dot]
    simp only [hb] at hfind
    rw [if_neg (by norm_num), if_pos (by norm_num)] at hfind
    have hqe : V3.add ⟨0, 0, 0⟩ (V3.smul ((-(2 * (0 / 5)) + 2) / 2 / 5) (V3.sub ⟨0, 4, 3⟩ ⟨0, 0, 0⟩)) = (⟨0, 4 / 5, 3 / 5⟩ : V3) := by
      norm_num [V3.add, V3.smul, V3.sub]
    rw [hqe] at hfind
    have hne : V3.sub (⟨0, 4, 3⟩ : V3) ⟨0, 0, 0⟩ ≠ V3.zero := by
      rw [hw]; intro h; have := congrArg V3.y h; norm_num [V3.zero] at this
    have hang := congrArg Prod.fst (getAnglesSphere_eq (R := 2 / 2) (by norm_num) (p0 := ⟨0, 0, 0⟩) (p1 := ⟨0, 4, 3⟩)
      (by norm_num [Bounded]) (by norm_num [Bounded]) hne (by norm_num [V3.normSq, V3.dot]) hfind)
    have hnorm : (V3.sub (⟨0, 4, 3⟩ : V3) ⟨0, 0, 0⟩).norm = 5 := by
      apply norm_eq_of_normSq (by norm_num)
      rw [hw]; norm_num [V3.normSq, V3.dot]
    show (getAnglesSphere (ofV3 ⟨0, 0, 0⟩) (ofV3 ⟨0, 4, 3⟩) (2 / 2)).1 = fin 0
    rw [hang, hnorm, hw, fin_inj, Real.arccos_eq_zero]
    norm_num [V3.dot, V3.smul]
  obtain ⟨l, hl, hT⟩ := one_transmitted (g := sphereGeometry 2 o 2 t) le_rfl (by positivity : (0 : ℝ) ≤ Real.pi / 2)
    (fun j => (hev j).1) (fun j => (hev j).2.1) (fun j => (hev j).2.2.1)
    (fun j => centre_entry (fun _ => rfl) (fun _ => rfl) j) (fun j => exitAngle_none two_pos (hev j).1) hang false
  -- with it
  have hang' : ∀ j, (gonioGeometry 2 o 2 t G).thTrans j = fin (Real.pi / 2) := fun j => by
    show exitAngle 2 2 (afterShift 2 o 2 t).position (sphereEvents 2 o 2 t).2.1 j = fin (Real.pi / 2)
    unfold exitAngle
    have s0 := selV_eq (fun (e : Fin 2) j => centred 2 (rowsP 2 (afterShift 2 o 2 t).position e.castSucc j)) (sphereEvents 2 o 2 t).2.1 j 1 (hev j).2.1
    have s1 := selV_eq (fun (e : Fin 2) j => centred 2 (rowsP 2 (afterShift 2 o 2 t).position e.succ j)) (sphereEvents 2 o 2 t).2.1 j 1 (hev j).2.1
    have e0 : centred 2 (rowsP 2 (afterShift 2 o 2 t).position (1 : Fin 2).castSucc j) = (⟨0, 0, -2⟩ : V3) := by
      show centred 2 ((shifted t (sphereEvents 2 o 2 t).2.2.2).position 1 j) = _
      rw [(hsh j).2.1]; norm_num [centred]
    have e1 : centred 2 (rowsP 2 (afterShift 2 o 2 t).position (1 : Fin 2).succ j) = (⟨0, 4, -5⟩ : V3) := by
      show centred 2 ((shifted t (sphereEvents 2 o 2 t).2.2.2).position 2 j) = _
      rw [(hsh j).2.2.1]; norm_num [centred]
    rw [e0] at s0
    rw [e1] at s1
    simp only [s0, s1]
    show (getAnglesSphere (ofV3 ⟨0, 0, -2⟩) (ofV3 ⟨0, 4, -5⟩) (2 / 2)).1 = fin (Real.pi / 2)
    refine getAngles_miss (by norm_num [Bounded]) (by norm_num [Bounded]) fun u => ?_
    simp only [V3.normSq, V3.dot, V3.add, V3.smul, V3.sub]
    nlinarith [sq_nonneg (25 * u + 6)]
  obtain ⟨l', hl', hT'⟩ := one_transmitted (g := gonioGeometry 2 o 2 t G) (by positivity : (0 : ℝ) ≤ Real.pi / 2) le_rfl
    hri (fun j => (hev j).2.1) (fun j => (hev j).2.2.1)
    (fun j => centre_entry (fun j => (hsh j).1) (fun j => (hsh j).2.2.2.1) j) (fun j => exitAngle_none two_pos (hri j)) hang' true
  refine ⟨_, _, _, _, ?_, ?_, hT, hT', ?_⟩
  · rw [calcSphere]
    have hl2 : level o (sphereGeometry 2 o 2 t) none false (fun (e : Fin 2) j => t.weight e j) = .ok l := hl
    simp only [lt_irrefl, decide_false, hl2, bind, Except.bind, Bool.false_eq_true, false_and, dite_false, pure, Except.pure]
  · unfold calcSphereGonio
    have hl2 : level o (gonioGeometry 2 o 2 t G) none false (fun (e : Fin 2) j => t.weight e j) = .ok l' := hl'
    simp only [hl2, bind, Except.bind, Bool.false_eq_true, false_and, if_false, pure, Except.pure]
  · rw [passFrac_one le_rfl (by positivity : (0 : ℝ) < Real.pi / 2), passFrac_grazing]
    unfold EPS
    norm_num

/-- C142, refuted: which photons are counted.  The photon goes from the centre (0, 0, 1) of a sphere of index 2 in the direction
(3/5, 0, -4/5), leaves through the surface along its normal, so undeviated, and its ray hits the detector
(`det_theta=0, det_len=22, det_dist=9`).  But no goniometer further away than 3/4 counts it: the direction is refracted at a
horizontal plane, where it would be totally reflected. -/
theorem C142_direction_refuted {o : Optics} (ho : OpticsOK o) (h2 : o.n_sample = 2) (h1 : o.n_medium = 1) :
    (∀ j, (sphereEvents 2 o 2 (fromCentre ⟨3 / 5, 0, -4 / 5⟩ 5)).1 j = 2) ∧
    RefractedAt o.n_sample o.n_medium ⟨3 / 5, 0, -4 / 5⟩ ⟨3 / 5, 0, -4 / 5⟩ ⟨3 / 5, 0, -4 / 5⟩ ∧
    HitsDetector ⟨0, 0, 1⟩ ⟨3 / 5, 0, -4 / 5⟩ 0 22 9 ∧
    ∀ θ L d : ℝ, θ < Real.pi / 2 → 9 / 16 < d ^ 2 + (L / 2) ^ 2 → ∀ j,
      ¬ SphereCounts 2 o 2 (fromCentre ⟨3 / 5, 0, -4 / 5⟩ 5) (θ, L, d) j := by
  have hk : (⟨3 / 5, 0, -4 / 5⟩ : V3).normSq = 1 := by norm_num [V3.normSq, V3.dot]
  have hev := (centre_events hk (s := 5) (by norm_num) (by norm_num) ho).1 (by norm_num)
  refine ⟨fun j => (hev j).1, ⟨hk, by norm_num [V3.dot], ?_⟩, ⟨15, ⟨9, 0, -11⟩, by norm_num, ?_, ?_, ?_, ?_, ?_⟩, ?_⟩
  · ext <;> norm_num [V3.cross, V3.smul]
  · ext <;> norm_num [V3.add, V3.smul]
  · norm_num [V3.normSq, V3.dot]
  · norm_num [abs_lt]
  · norm_num [abs_lt]
  · norm_num
  · intro θ L d hθ hd j
    rw [C142_counted_at_plane_partial ho (by rw [h2]; norm_num) (e := 1) (plane := ⟨3 / 4, 0, 0⟩) (hev j).1]
    · rintro ⟨-, k2, ⟨hn, -, hx⟩, -⟩
      rw [h1, h2] at hx
      have hy := congrArg V3.y hx
      norm_num [V3.cross, V3.smul, fromCentre] at hy
      have hn' : k2.x * k2.x + k2.y * k2.y + k2.z * k2.z = 1 := hn
      nlinarith [mul_self_nonneg k2.y, mul_self_nonneg k2.z]
    · intro i hi
      have : i = 0 ∨ i = 1 := by have : i ≤ 1 := hi; omega
      rcases this with rfl | rfl <;> norm_num [fromCentre]
    · intro i hi
      have : i = 0 ∨ i = 1 := by have : i ≤ 1 := hi; omega
      rcases this with rfl | rfl <;> norm_num [fromCentre]
    · norm_num
    · norm_num [fromCentre, V3.normSq, V3.dot]
    · exact hθ
    · rfl
    · refine ⟨-15 / 4, ?_⟩
      ext <;> norm_num [fromCentre, V3.add, V3.smul]
    · norm_num [V3.normSq, V3.dot]; linarith

/-- arguments for a sphere of index 3/2, diameter 2, in air -/
abbrev demoSphereArgs : SphereArgs := ⟨1, 3 / 2, 2, none, none, Real.pi / 2, 0, none, none, true, 20, 1 / 100⟩
/-- random numbers -/
abbrev demoDraws : ℕ → Draws 1 3 := fun _ => ⟨fun _ _ => 1, fun _ _ => 0, fun _ _ => 1 / 2, fun _ => 1 / 2⟩

theorem passFrac_enter : passFrac 1 none (3 / 2) 0 = 24 / 25 / (1 + EPS) := by
  have h : ¬ tirMask 1 (3 / 2) 0 := by rintro ⟨h, -⟩; norm_num at h
  have hr : root 1 (3 / 2) 0 = 3 / 2 := by
    unfold root
    rw [Real.sin_zero, show |(3 / 2 : ℝ) ^ 2 - (1 * 0) ^ 2| = (3 / 2) ^ 2 by norm_num]
    exact Real.sqrt_sq (by norm_num)
  have h1 : rPar 1 (3 / 2) 0 = 1 / 25 := by
    unfold rPar ratioSq; rw [if_neg h, hr]; norm_num [Real.cos_zero, abs_of_neg]
  have h2 : rPerp 1 (3 / 2) 0 = 1 / 25 := by
    unfold rPerp ratioSq; rw [if_neg h, hr]; norm_num [Real.cos_zero, abs_of_neg]
  unfold passFrac
  simp only [Option.getD_none, thetaInside_same one_pos le_rfl (by positivity : (0 : ℝ) ≤ Real.pi / 2),
    (rMean_same one_pos le_rfl (by positivity : (0 : ℝ) < Real.pi / 2)).1, (rMean_same one_pos le_rfl (by positivity : (0 : ℝ) < Real.pi / 2)).2, h1, h2]
  norm_num

theorem passFrac_grazing' (n m : ℝ) : passFrac n none m (Real.pi / 2) = 0 := by
  unfold passFrac
  simp only [Option.getD_none, grazing_eq_one.1, grazing_eq_one.2]
  norm_num

/-- C142, refuted: with `run_fresnel_traj=True` (the default) a goniometer of no extent, which counts no photon, still reads more
than 4 %: the specular reflection, which is left out without re-running, is added when light is sent back at the surface (and so is
all the light reflected in the nested call, which has no goniometer). -/
theorem C142_rerun_reads_refuted (θ d : ℝ) :
    (∀ j, ¬ SphereCounts 2 demoSphereArgs.optics 2 (fromCentre ⟨0, 4 / 5, 3 / 5⟩ 5) (θ, 0, d) j) ∧
    ∃ rt R, calcSphereGonio 2 ⟨(demoSampling 0).p, (demoSampling 0).mu_scat, (demoSampling 0).mu_scat_mie, (demoSampling 0).mu_abs⟩ demoDraws
        true (1 / 100) demoSphereArgs.nested demoSphereArgs.optics 20 2 (θ, 0, d) (fromCentre ⟨0, 4 / 5, 3 / 5⟩ 5) = .ok rt ∧
      rt.R = fin R ∧ 1 / 25 < R := by
  refine ⟨fun j => C142_point_detector _ _ _ _ _ j, ?_⟩
  have H := demo_sphereRun 0 le_rfl
  obtain ⟨ho, hon⟩ := sphere_optics H
  set t := fromCentre ⟨0, 4 / 5, 3 / 5⟩ 5 with ht
  set o := demoSphereArgs.optics with hod
  have ho' : OpticsOK o := ho
  have hk : (⟨0, 4 / 5, 3 / 5⟩ : V3).normSq = 1 := by norm_num [V3.normSq, V3.dot]
  have hev := (centre_events hk (s := 5) (by norm_num) (by norm_num) ho').2 (by norm_num)
  rw [← ht] at hev
  have hsh := centre_shift (k := ⟨0, 4 / 5, 3 / 5⟩) (s := 5) (sphereEvents 2 o 2 t).2.2.2 (hev 0).2.2.2
  set g := gonioGeometry 2 o 2 t (θ, 0, d) with hg
  have hri : ∀ j, g.ri j = 0 := fun j => by
    show countedIndices 2 o 2 t (θ, 0, d) j = 0
    unfold countedIndices calcIndicesDetected
    simp only
    split
    · exact (hev j).1
    · rfl
  have hin : ∀ j, g.thInc j = fin 0 := fun j => centre_entry (fun j => (hsh j).1) (fun j => (hsh j).2.2.2.1) j
  have hr : ∀ j, g.thRefl j = fin (Real.pi / 2) := fun j => exitAngle_none two_pos (hri j)
  have htθ : ∃ θt : Fin 1 → ℝ, (∀ j, g.thTrans j = fin (θt j)) ∧ ∀ j, θt j = Real.pi / 2 := by
    refine ⟨fun _ => Real.pi / 2, fun j => ?_, fun _ => rfl⟩
    show exitAngle 2 2 (afterShift 2 o 2 t).position (sphereEvents 2 o 2 t).2.1 j = fin (Real.pi / 2)
    unfold exitAngle
    have s0 := selV_eq (fun (e : Fin 2) j => centred 2 (rowsP 2 (afterShift 2 o 2 t).position e.castSucc j)) (sphereEvents 2 o 2 t).2.1 j 1 (hev j).2.1
    have s1 := selV_eq (fun (e : Fin 2) j => centred 2 (rowsP 2 (afterShift 2 o 2 t).position e.succ j)) (sphereEvents 2 o 2 t).2.1 j 1 (hev j).2.1
    have e0 : centred 2 (rowsP 2 (afterShift 2 o 2 t).position (1 : Fin 2).castSucc j) = (⟨0, 0, -2⟩ : V3) := by
      show centred 2 ((shifted t (sphereEvents 2 o 2 t).2.2.2).position 1 j) = _
      rw [(hsh j).2.1]; norm_num [centred]
    have e1 : centred 2 (rowsP 2 (afterShift 2 o 2 t).position (1 : Fin 2).succ j) = (⟨0, 4, -5⟩ : V3) := by
      show centred 2 ((shifted t (sphereEvents 2 o 2 t).2.2.2).position 2 j) = _
      rw [(hsh j).2.2.1]; norm_num [centred]
    rw [e0] at s0
    rw [e1] at s1
    simp only [s0, s1]
    show (getAnglesSphere (ofV3 ⟨0, 0, -2⟩) (ofV3 ⟨0, 4, -5⟩) (2 / 2)).1 = fin (Real.pi / 2)
    refine getAngles_miss (by norm_num [Bounded]) (by norm_num [Bounded]) fun u => ?_
    simp only [V3.normSq, V3.dot, V3.add, V3.smul, V3.sub]
    nlinarith [sq_nonneg (25 * u + 6)]
  obtain ⟨θt, htt, hθt⟩ := htθ
  have hE := EPS_pos
  set p : ℝ := 24 / 25 / (1 + EPS) with hp
  have hp0 : 0 < p := by positivity
  have hp1 : p < 24 / 25 := by rw [hp, div_lt_iff₀ (by linarith)]; linarith
  have hp2 : 1 / 2 < p := by rw [hp, lt_div_iff₀ (by linarith)]; unfold EPS; norm_num
  have hir : IncReflIs o g none (fun _ => p) (fun _ => 1 - p) := by
    intro j
    have e : g.thIncDet = fun _ => fin 0 := funext hin
    show detectCorrect g.thIncDet (fun _ => fin (1 - p)) o.n_medium o.n_medium o.detection_angle j = fin (1 - p)
    rw [e, detectCorrect_fin (fun _ => 0) (fun _ => 1 - p) ho'.medium.ne']
    simp only [fin_inj, dcR, Real.sin_zero, mul_zero, abs_zero, Real.arcsin_zero]
    exact if_pos ⟨zero_le_one, (by positivity : (0 : ℝ) ≤ Real.pi / 2)⟩
  obtain ⟨l, hl, hL⟩ := level_fin o g none false (fun (_ : Fin 2) _ => 1) (fun _ => p)
    (fun _ => Real.pi / 2) θt (fun _ => 1 - p) ho'.tir ho'.medium ho'.front ho'.back
    (by
      have e : g.thInc = fun _ => fin 0 := funext hin
      simp only [incPassFrac, Bool.false_eq_true, if_false, e]
      rw [fresnelPassFrac_fin (fun _ => 0) _ ho'.medium ho'.front (fun _ => ⟨le_rfl, by positivity⟩)]
      congr 1
      funext j
      rw [fin_inj, hp, ← passFrac_enter]
      rfl)
    (funext hr) (funext htt) (fun _ => ⟨by positivity, le_rfl⟩) (fun j => by rw [hθt]; exact ⟨by positivity, le_rfl⟩) hir
  set c := shadow o g (fun (_ : Fin 2) _ => 1) (fun _ => p) (fun _ => Real.pi / 2) θt with hc
  have ct : ∀ j, c.t j = p := fun j => by
    have : g.ti j = 2 := (hev j).2.1
    simp only [hc, shadow, sel, this]; norm_num
  have cs : ∀ j, c.s j = 0 := fun j => by
    simp only [hc, shadow, sel_zero _ g.si j (hev j).2.2.1, mul_zero]
  have cr : ∀ j, c.r j = 0 := fun j => by
    simp only [hc, shadow, sel_zero _ g.ri j (hri j), mul_zero]
  have cPt : ∀ j, c.Pt j = 0 := fun j => by
    have : c.pt j = passFrac o.n_tir none o.n_medium (Real.pi / 2) := by rw [← hθt j]; rfl
    rw [RIn.Pt, this, passFrac_grazing', mul_zero]
  have cPr : ∀ j, c.Pr j = 0 := fun j => by rw [RIn.Pr, cr, zero_mul]
  have cW : ∀ j, c.fr j + c.ft j + c.s j = p := fun j => by rw [RIn.fr, RIn.ft, cr, ct, cs, cPt, cPr]; ring
  have cdr : ∀ j, c.dr o.n_sample o.n_medium o.detection_angle j = 0 := fun j => by
    rw [RIn.dr, cPr]; unfold dcR; split <;> rfl
  have hl2 : level o g none false (fun (e : Fin 2) j => t.weight e j) = .ok l := hl
  have htot : (fin (1 / 100) : XF) < l.totalStuck := by
    rw [hL.total]
    simp only [cW, Finset.univ_unique, Finset.sum_singleton, Nat.cast_one, fin_div _ one_ne_zero, fin_lt]
    linarith
  have hstart : ∃ F, restart 2 (rowsP 2 (afterShift 2 o 2 t).position) (rowsD 2 (afterShift 2 o 2 t).direction)
      (restartIndices (countedIndices 2 o 2 t (θ, 0, d)) (sphereEvents 2 o 2 t).2.1 (sphereEvents 2 o 2 t).2.2.2) = .ok F ∧
      ∀ j, ∃ q : V3, (F j).1 = ofV3 q ∧ (V3.sub q ⟨0, 0, demoSphereArgs.thickness / 2⟩).normSq ≤
        (demoSphereArgs.thickness / 2) * (demoSphereArgs.thickness / 2) := by
    set idx := restartIndices (countedIndices 2 o 2 t (θ, 0, d)) (sphereEvents 2 o 2 t).2.1 (sphereEvents 2 o 2 t).2.2.2 with hidx
    have hi2 : ∀ j, idx j = 2 := fun j => by
      have h1 := hri j
      have h2 := (hev j).2.1
      have h3 := (hev j).2.2.2
      show countedIndices 2 o 2 t (θ, 0, d) j + (sphereEvents 2 o 2 t).2.1 j + (sphereEvents 2 o 2 t).2.2.2 j = 2
      have h1' : countedIndices 2 o 2 t (θ, 0, d) j = 0 := h1
      omega
    unfold restart
    rw [if_neg (by rintro ⟨j, hj⟩; rw [hi2] at hj; omega)]
    refine ⟨_, rfl, fun j => ⟨⟨0, 0, 1⟩, ?_, by norm_num [V3.sub, V3.normSq, V3.dot]⟩⟩
    have s0 := selV_eq (fun (e : Fin 2) j => rowsP 2 (afterShift 2 o 2 t).position e.castSucc j) idx j 1 (hi2 j)
    have s1 := selV_eq (fun (e : Fin 2) j => rowsP 2 (afterShift 2 o 2 t).position e.succ j) idx j 1 (hi2 j)
    have e0 : rowsP 2 (afterShift 2 o 2 t).position (1 : Fin 2).castSucc j = (⟨0, 0, -1⟩ : V3) := (hsh j).2.1
    have e1 : rowsP 2 (afterShift 2 o 2 t).position (1 : Fin 2).succ j = (⟨0, 4, -4⟩ : V3) := by
      refine (hsh j).2.2.1.trans ?_
      norm_num
    rw [e0] at s0
    rw [e1] at s1
    have hsel : sel (fun (_ : Fin (2 + 1)) (_ : Fin 1) => (2 : ℝ) / 2) idx j = 1 := by
      simp only [sel, hi2]; norm_num
    have hid := infToLarge_id (p0 := ⟨0, 0, -1⟩) (p1 := ⟨0, 4, -4⟩) (R := 2 / 2) (by norm_num [Bounded]) (by norm_num [Bounded])
    have hmiss := C21_sphere_miss (p0 := ⟨0, 0, -2⟩) (p1 := ⟨0, 4, -5⟩) (R := 2 / 2) (Or.inr fun u => by
      simp only [V3.normSq, V3.dot, V3.add, V3.smul, V3.sub]
      nlinarith [sq_nonneg (25 * u + 6)])
    simp only [ofV3] at hid hmiss ⊢
    simp only [s0, s1, hsel, hid]
    simp only [finV, fin_sub]
    norm_num only
    simp only [finV] at hmiss
    norm_num only at hmiss
    rw [hmiss]
    simp [V3.zero]
  obtain ⟨F, hF, hFin⟩ := hstart
  have hW : Restart.restartWeight l.exit.reflFresnel l.exit.transFresnel l.out.stuck = fun _ => (fin p : XF) := by
    funext j
    rw [Restart.restartWeight, hL.reflFresnel, hL.transFresnel, hL.stuck, fin_add, fin_add, cW]
  obtain ⟨t', ht', hgen⟩ := rerun_ok H 3 1 (ω := fun _ => p) hFin
  obtain ⟨r', R', T', i', hr', hR', hT', hR0, -⟩ := sphere_bound H hon _ demoSphereArgs.nested hon defaultMaxCallDepth 1 3 t' _ rfl
    (fun _ => ⟨hp0.le, by linarith⟩) hgen (fun h => absurd h (by omega))
  refine ⟨{ R := r'.R + ∑ j, (l.det.refl j + l.det.incRefl j) / fin (1 : ℕ), T := r'.T + ∑ j, l.det.trans j / fin (1 : ℕ),
            reflPer := fun j => r'.reflPer j + (l.det.refl j + l.det.incRefl j) / fin (1 : ℕ),
            transPer := fun j => r'.transPer j + l.det.trans j / fin (1 : ℕ) }, R' + (1 - p), ?_, ?_, by linarith⟩
  · unfold calcSphereGonio
    simp only [← hg, hl2, bind, Except.bind]
    rw [if_pos ⟨trivial, by norm_num, htot⟩]
    simp only [hF, hW]
    simp only [ht', hr']
    rfl
  · simp only [hR', hL.refl, hL.incRefl, cdr, fin_add, Finset.univ_unique, Finset.sum_singleton, Nat.cast_one, fin_div _ one_ne_zero, fin_inj]
    ring

/-- Non-vacuity of C142_counted_at_plane_partial: a photon that is counted (all hypotheses hold for it, see the proof of
`bounced_counted`). -/
example (a : ℝ) : SphereCounts 2 (matchedOptics a) 2 bounced (0, 22, 5) 0 := by
  unfold SphereCounts
  rw [bounced_counted]
  norm_num

/-- Non-vacuity of C142_no_photon_no_reading: a call that returns, with a detector that counts no photon. -/
example (m : Medium 3) (draws : ℕ → Draws 1 3) : ∃ rt, (∀ j, ¬ SphereCounts 2 (matchedOptics (Real.pi / 2)) 2 (fromCentre ⟨0, 4 / 5, 3 / 5⟩ 5) (0, 0, 1) j) ∧
    calcSphereGonio 2 m draws false (1 / 100) (matchedOptics (Real.pi / 2)) (matchedOptics (Real.pi / 2)) 20 2 (0, 0, 1)
      (fromCentre ⟨0, 4 / 5, 3 / 5⟩ 5) = .ok rt := by
  obtain ⟨-, rt', -, -, -, h, -⟩ := C142_transmittance_refuted m draws (1 / 100) (matchedOptics (Real.pi / 2)) 20 (0, 0, 1)
  exact ⟨rt', fun j => C142_point_detector _ _ _ _ _ j, h⟩

end
end Verif.Props
