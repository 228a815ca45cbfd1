import Verif.Lemmas.Exits
import Mathlib.Tactic.FinCases
import Mathlib.Tactic.Positivity

/-!
# Properties C09–C13: which event a trajectory leaves at, and through which face
-/

namespace Verif.Props
open Classical Verif.Spec Verif.Root Verif.Exits XF

/-! ## C09 -/

/-- C09.  Exactly one of the three outcome numbers is non-zero, the stuck number then being the number of events
(which is at least 1 in any simulation). (True for every table of flags, even one with an event flagged in both directions.) -/
theorem C09_exactly_one_outcome {nev nt : ℕ} (neg pos tir : Fin nev → Fin nt → Bool) (j : Fin nt) :
    let r := findEventIndices neg pos tir
    (r.1 j ≠ 0 ∧ r.2.1 j = 0 ∧ r.2.2.1 j = 0) ∨
    (r.1 j = 0 ∧ r.2.1 j ≠ 0 ∧ r.2.2.1 j = 0) ∨
    (r.1 j = 0 ∧ r.2.1 j = 0 ∧ r.2.2.1 j = nev) := by
  simp only [findEventIndices]
  rw [refl_cases, trans_cases, stuck_cases]
  by_cases h1 : firstEvent neg j = 0 <;> by_cases h2 : firstEvent pos j = 0
  · simp [h1, h2]
  · right; left; simp [h1, h2]
  · left; simp [h1, h2]
  · by_cases h3 : firstEvent neg j < firstEvent pos j
    · left; simp [h1, h2, h3]
    · right; left; simp [h1, h2, h3]

/-! ## C10 -/

/-- C10.  Full description of the reported event numbers.  The reflected number is `m` exactly when `m` is the first event
flagged as a reflection exit and no transmission exit is flagged at or before it; symmetrically for transmission; the
trajectory is stuck exactly when nothing is flagged; the tir number is the first flagged tir event, 0 if none. -/
theorem C10_first_exit {nev nt : ℕ} (hnev : 1 ≤ nev) (neg pos tir : Fin nev → Fin nt → Bool) (j : Fin nt) :
    let r := findEventIndices neg pos tir
    (∀ m, 1 ≤ m → (r.1 j = m ↔ IsFirst nev (flagged neg j) m ∧ ∀ k, k ≤ m → ¬ flagged pos j k)) ∧
    (∀ m, 1 ≤ m → (r.2.1 j = m ↔ IsFirst nev (flagged pos j) m ∧ ∀ k, k < m → ¬ flagged neg j k)) ∧
    (r.2.2.1 j ≠ 0 ↔ ∀ m, ¬ flagged neg j m ∧ ¬ flagged pos j m) ∧
    (∀ m, 1 ≤ m → (r.2.2.2 j = m ↔ IsFirst nev (flagged tir j) m)) ∧
    (r.2.2.2 j = 0 ↔ ∀ m, ¬ flagged tir j m) := by
  have hpos1 : ∀ (t : Fin nev → Fin nt → Bool) k, flagged t j k → 1 ≤ k := by
    rintro t k ⟨e, he, _⟩; omega
  have hz : ∀ t : Fin nev → Fin nt → Bool, firstEvent t j = 0 ↔ ∀ k, ¬ flagged t j k := by
    intro t
    rw [firstEvent_zero_iff]
    constructor
    · rintro h k ⟨e, _, he⟩; rw [h e] at he; cases he
    · intro h e
      by_contra hne
      exact h (e.val + 1) ⟨e, rfl, by simpa using hne⟩
  have hbefore : ∀ (t : Fin nev → Fin nt → Bool) m, firstEvent t j ≠ 0 → m < firstEvent t j →
      ∀ k, k ≤ m → ¬ flagged t j k := by
    intro t m h0 hm k hk hf
    exact (firstEvent_isFirst t j h0).2.2.2 k (hpos1 t k hf) (by omega) hf
  simp only [findEventIndices]
  refine ⟨?_, ?_, ?_, ?_, hz tir⟩
  · intro m hm
    rw [refl_cases]
    split
    · next h =>
      rw [firstEvent_eq_iff _ _ (by omega)]
      constructor
      · intro hf
        refine ⟨hf, ?_⟩
        rcases h with h | h
        · intro k _; exact (hz pos).1 h k
        · have : firstEvent neg j = m := (firstEvent_eq_iff _ _ (by omega)).2 hf
          exact hbefore pos m (by omega) (by omega)
      · exact fun hf => hf.1
    · next h =>
      push Not at h
      constructor
      · intro h0; omega
      · rintro ⟨hf, hno⟩
        exfalso
        have : firstEvent neg j = m := (firstEvent_eq_iff _ _ (by omega)).2 hf
        exact hno _ (by omega) (firstEvent_isFirst pos j h.1).2.2.1
  · intro m hm
    rw [trans_cases]
    split
    · next h =>
      rw [firstEvent_eq_iff _ _ (by omega)]
      constructor
      · intro hf
        refine ⟨hf, ?_⟩
        have : firstEvent pos j = m := (firstEvent_eq_iff _ _ (by omega)).2 hf
        rcases h with h | h
        · intro k _; exact (hz neg).1 h k
        · intro k hk hfl
          by_cases h0 : firstEvent neg j = 0
          · exact (hz neg).1 h0 k hfl
          · exact hbefore neg k h0 (by omega) k le_rfl hfl
      · exact fun hf => hf.1
    · next h =>
      push Not at h
      constructor
      · intro h0; omega
      · rintro ⟨hf, hno⟩
        exfalso
        have : firstEvent pos j = m := (firstEvent_eq_iff _ _ (by omega)).2 hf
        exact hno _ (by omega) (firstEvent_isFirst neg j h.1).2.2.1
  · rw [stuck_cases]
    split
    · next h =>
      constructor
      · intro _ m; exact ⟨(hz neg).1 h.1 m, (hz pos).1 h.2 m⟩
      · intro _; omega
    · next h =>
      constructor
      · intro h'; exact absurd rfl h'
      · intro h'
        exfalso
        exact h ⟨(hz neg).2 fun m => (h' m).1, (hz pos).2 fun m => (h' m).2⟩
  · intro m hm
    exact firstEvent_eq_iff _ _ (by omega)

/-- Non-vacuity of C09/C10: three trajectories, two events: reflected at 2, transmitted at 1, stuck. -/
example : let neg : Fin 2 → Fin 3 → Bool := ![![false, false, false], ![true, true, false]]
    let pos : Fin 2 → Fin 3 → Bool := ![![false, true, false], ![false, false, false]]
    let r := findEventIndices neg pos (fun _ _ => false)
    r.1 = ![2, 0, 0] ∧ r.2.1 = ![0, 1, 0] ∧ r.2.2.1 = ![0, 0, 2] := by
  refine ⟨?_, ?_, ?_⟩ <;>
  · funext j
    fin_cases j <;> decide

/-! ## C11, C12: film -/

theorem noTir_iff {ns nm kz : ℝ} (hs : 0 < ns) (hm : 0 < nm) (hle : nm ≤ ns) (hk : |kz| ≤ 1) :
    noTirFilm ns nm kz = true ↔ ns * Real.sqrt (1 - kz ^ 2) < nm := by
  unfold noTirFilm
  rw [decide_eq_true_iff, XF.fin_div _ hs.ne']
  have h1 : nm / ns ≤ 1 := (div_le_one hs).mpr hle
  have h0 : 0 < nm / ns := div_pos hm hs
  rw [XF.arcsin_of_mem (by linarith) h1, XF.cos_fin, XF.fin_lt, Real.cos_arcsin]
  have hk2 : kz ^ 2 ≤ 1 := by rw [← sq_abs]; nlinarith [abs_nonneg kz]
  have hr2 : (nm / ns) ^ 2 ≤ 1 := by nlinarith
  rw [← Real.sqrt_sq_eq_abs, Real.sqrt_lt_sqrt_iff (by linarith), ← lt_div_iff₀' hs, Real.sqrt_lt' h0]
  constructor <;> intro h <;> linarith

/-- When `zFloor` changes from `f0` to `f1`, the first level crossed is `f0 + 1` (upward) or `f0` (downward). -/
theorem firstCrossed_floor (u0 u1 : ℝ) (b : ℤ) :
    FirstCrossed u0 u1 b ↔ (⌊u1⌋ ≠ ⌊u0⌋ ∧ b = ⌊u0⌋ + if ⌊u1⌋ > ⌊u0⌋ then 1 else 0) := by
  unfold FirstCrossed
  constructor
  · rintro (⟨h1, h2, h3⟩ | ⟨h1, h2, h3⟩)
    · have ha : ⌊u0⌋ < b := Int.floor_lt.mpr h1
      have hb : b ≤ ⌊u1⌋ := Int.le_floor.mpr h2
      have hc : b ≤ ⌊u0⌋ + 1 := h3 _ (by push_cast; exact Int.lt_floor_add_one u0)
      refine ⟨by omega, ?_⟩
      rw [if_pos (by omega)]; omega
    · have ha : ⌊u1⌋ < b := Int.floor_lt.mpr h1
      have hb : b ≤ ⌊u0⌋ := Int.le_floor.mpr h2
      have hc : ⌊u0⌋ ≤ b := h3 _ (Int.floor_le u0)
      refine ⟨by omega, ?_⟩
      rw [if_neg (by omega)]; omega
  · rintro ⟨hne, hb⟩
    by_cases hgt : ⌊u1⌋ > ⌊u0⌋
    · rw [if_pos hgt] at hb
      left
      refine ⟨?_, ?_, ?_⟩
      · rw [hb]; push_cast; exact Int.lt_floor_add_one u0
      · rw [← Int.le_floor]; omega
      · intro c hc
        have := Int.floor_lt.mpr hc
        omega
    · rw [if_neg hgt] at hb
      right
      refine ⟨?_, ?_, ?_⟩
      · rw [← Int.floor_lt]; omega
      · rw [hb, add_zero]; exact Int.floor_le u0
      · intro c hc
        have := Int.le_floor.mpr hc
        omega

/-- At an integer level the folded height is 0 (the illuminated face) for even levels and 1 (the far face) for odd. -/
theorem fold_int (b : ℤ) : fold (b : ℝ) = if b % 2 = 0 then 0 else 1 := by
  unfold fold
  rcases Int.emod_two_eq_zero_or_one b with h | h
  · obtain ⟨k, rfl⟩ : ∃ k, b = 2 * k := ⟨b / 2, by omega⟩
    have : ((2 * k : ℤ) : ℝ) / 2 = (k : ℤ) := by push_cast; ring
    rw [this, round_intCast, if_pos h]
    push_cast; simp
  · obtain ⟨k, rfl⟩ : ∃ k, b = 2 * k + 1 := ⟨b / 2, by omega⟩
    have h1 : ((2 * k + 1 : ℤ) : ℝ) / 2 = (k : ℝ) + 1 / 2 := by push_cast; ring
    have h2 : round ((k : ℝ) + 1 / 2) = k + 1 := by
      rw [round_eq, add_assoc, show (1:ℝ)/2 + 1/2 = 1 by norm_num]
      have : (k : ℝ) + 1 = ((k + 1 : ℤ) : ℝ) := by push_cast; ring
      rw [this, Int.floor_intCast]
    rw [h1, h2, if_neg (by omega)]
    push_cast
    rw [show (2 * (k:ℝ) + 1 - 2 * (k + 1)) = -1 by ring]; simp

/-- C11.  Film with `z_low < thickness`, medium not denser than the sample, directions with |kz| ≤ 1.  Event `e+1` of
trajectory `j` is flagged

* as transmission exactly when the direction is inside the critical cone and the first face met on the way from the
  position before to the position after the event is, once the unfolded height is folded back into the film, the far
  face `thickness`;
* as reflection under the same condition with the illuminated face `z_low`;
* as total internal reflection (on the reflection side) when that face is `z_low` and the direction is outside the cone.

In particular nothing is flagged at an event at which no face is met. -/
theorem C11_film_exit_face {nev nt : ℕ} {ns nm th zl : ℝ} (hs : 0 < ns) (hm : 0 < nm) (hle : nm ≤ ns) (hth : zl < th)
    (z : Fin (nev + 1) → Fin nt → ℝ) (kz : Fin nev → Fin nt → ℝ) (hk : ∀ e j, |kz e j| ≤ 1)
    (e : Fin nev) (j : Fin nt) :
    let X := findValidExitsFilm ns nm th zl z kz
    let u : Fin (nev + 1) → ℝ := fun i => (z i j - zl) / (th - zl)
    let face : ℤ → ℝ := fun b => zl + fold b * (th - zl)
    let inCone := ns * Real.sqrt (1 - kz e j ^ 2) < nm
    (X.pos e j = true ↔ inCone ∧ ∃ b, FirstCrossed (u e.castSucc) (u e.succ) b ∧ face b = th) ∧
    (X.neg e j = true ↔ inCone ∧ ∃ b, FirstCrossed (u e.castSucc) (u e.succ) b ∧ face b = zl) ∧
    (X.tir e j = true ↔ ¬ inCone ∧ ∃ b, FirstCrossed (u e.castSucc) (u e.succ) b ∧ face b = zl) := by
  intro X u face inCone
  have hd : th - zl ≠ 0 := by linarith
  have hface1 : ∀ b, face b = th ↔ b % 2 ≠ 0 := by
    intro b
    show zl + fold b * (th - zl) = th ↔ _
    rw [fold_int]
    split
    · next h => simp [h]; intro h'; linarith
    · next h => simp [h]
  have hface0 : ∀ b, face b = zl ↔ b % 2 = 0 := by
    intro b
    show zl + fold b * (th - zl) = zl ↔ _
    rw [fold_int]
    split
    · next h => simp [h]
    · next h => simp [h]; intro h'; linarith
  have hcone : noTirFilm ns nm (kz e j) = true ↔ inCone := noTir_iff hs hm hle (hk e j)
  have hX : ∀ f0 f1 : ℤ, f0 = ⌊u e.castSucc⌋ → f1 = ⌊u e.succ⌋ →
      (X.pos e j = (!decide (f1 - f0 = 0) && noTirFilm ns nm (kz e j) && posDir f0 f1)) ∧
      (X.neg e j = (!decide (f1 - f0 = 0) && noTirFilm ns nm (kz e j) && !posDir f0 f1)) ∧
      (X.tir e j = (!decide (f1 - f0 = 0) && !noTirFilm ns nm (kz e j) && !posDir f0 f1)) := by
    rintro f0 f1 rfl rfl
    exact ⟨rfl, rfl, rfl⟩
  obtain ⟨h1, h2, h3⟩ := hX _ _ rfl rfl
  simp only [firstCrossed_floor, hface1, hface0]
  rw [h1, h2, h3]
  simp only [posDir, Bool.and_eq_true, Bool.not_eq_true', decide_eq_false_iff_not, decide_eq_true_iff, sub_eq_zero]
  have hc' : noTirFilm ns nm (kz e j) = false ↔ ¬ inCone := by
    rw [← hcone]; simp
  rw [hcone, hc']
  refine ⟨?_, ?_, ?_⟩
  · constructor
    · rintro ⟨⟨a, b⟩, c⟩; exact ⟨b, _, ⟨a, rfl⟩, c⟩
    · rintro ⟨b, _, ⟨a, rfl⟩, c⟩; exact ⟨⟨a, b⟩, c⟩
  · constructor
    · rintro ⟨⟨a, b⟩, c⟩; exact ⟨b, _, ⟨a, rfl⟩, by push Not at c; exact c⟩
    · rintro ⟨b, _, ⟨a, rfl⟩, c⟩; exact ⟨⟨a, b⟩, by push Not; exact c⟩
  · constructor
    · rintro ⟨⟨a, b⟩, c⟩; exact ⟨b, _, ⟨a, rfl⟩, by push Not at c; exact c⟩
    · rintro ⟨b, _, ⟨a, rfl⟩, c⟩; exact ⟨⟨a, b⟩, by push Not; exact c⟩

/-- C11 (plain case).  A trajectory that is inside the film before an event and above it afterwards is not flagged as
reflected (nor as tir on the reflection side) at that event; one that is below the film afterwards is not flagged as
transmitted.  No assumption on indices or directions. -/
theorem C11_film_side {nev nt : ℕ} {ns nm th zl : ℝ} (hth : zl < th)
    (z : Fin (nev + 1) → Fin nt → ℝ) (kz : Fin nev → Fin nt → ℝ) (e : Fin nev) (j : Fin nt)
    (hin : zl ≤ z e.castSucc j ∧ z e.castSucc j < th) :
    let X := findValidExitsFilm ns nm th zl z kz
    (th ≤ z e.succ j → X.neg e j = false ∧ X.tir e j = false) ∧
    (z e.succ j < zl → X.pos e j = false) ∧
    (zl ≤ z e.succ j ∧ z e.succ j < th → X.pos e j = false ∧ X.neg e j = false ∧ X.tir e j = false) := by
  intro X
  have hd : 0 < th - zl := by linarith
  have hf0 : zFloor th zl (z e.castSucc j) = 0 := by
    unfold zFloor
    rw [Int.floor_eq_zero_iff]
    constructor
    · exact div_nonneg (by linarith) hd.le
    · rw [div_lt_one hd]; linarith
  refine ⟨?_, ?_, ?_⟩
  · intro h
    have : 1 ≤ zFloor th zl (z e.succ j) := by
      unfold zFloor
      rw [Int.le_floor]
      push_cast
      rw [le_div_iff₀ hd]; linarith
    have hp : posDir (zFloor th zl (z e.castSucc j)) (zFloor th zl (z e.succ j)) = true := by
      unfold posDir; rw [hf0, if_pos (by omega)]; decide
    simp only [X, findValidExitsFilm, hp]
    simp
  · intro h
    have : zFloor th zl (z e.succ j) < 0 := by
      unfold zFloor
      rw [Int.floor_lt]
      push_cast
      exact div_neg_of_neg_of_pos (by linarith) hd
    have hp : posDir (zFloor th zl (z e.castSucc j)) (zFloor th zl (z e.succ j)) = false := by
      unfold posDir; rw [hf0, if_neg (by omega)]; decide
    simp only [X, findValidExitsFilm, hp]
    simp
  · intro h
    have hf1 : zFloor th zl (z e.succ j) = 0 := by
      unfold zFloor
      rw [Int.floor_eq_zero_iff]
      constructor
      · exact div_nonneg (by linarith) hd.le
      · rw [div_lt_one hd]; linarith
    simp only [X, findValidExitsFilm, hf0, hf1]
    simp

/-- Non-vacuity of C11: film of thickness 10, sample 1.5 in air, straight up from 3 to 12 at kz = 1: transmitted. -/
example : (findValidExitsFilm (3/2) 1 10 0 (nev := 1) (nt := 1) ![![3], ![12]] ![![1]]).pos 0 0 = true := by
  have h := (C11_film_exit_face (ns := 3/2) (nm := 1) (th := 10) (zl := 0) (by norm_num) one_pos (by norm_num)
    (by norm_num) (![![3], ![12]] : Fin 2 → Fin 1 → ℝ) (![![1]] : Fin 1 → Fin 1 → ℝ)
    (by intro e j; fin_cases e; fin_cases j; simp) 0 0).1
  rw [h]
  refine ⟨by norm_num, 1, ?_, ?_⟩
  · left
    refine ⟨by simp; norm_num, by simp; norm_num, ?_⟩
    intro c hc
    have : (0:ℝ) < c := lt_trans (by simp) hc
    exact_mod_cast this
  · beta_reduce; rw [fold_int]; norm_num

/-- C12 (film).  The three kinds of flag exclude each other at every event, for all indices and directions. -/
theorem C12_film_flags_exclusive {nev nt : ℕ} (ns nm th zl : ℝ)
    (z : Fin (nev + 1) → Fin nt → ℝ) (kz : Fin nev → Fin nt → ℝ) (e : Fin nev) (j : Fin nt) :
    let X := findValidExitsFilm ns nm th zl z kz
    ¬ (X.pos e j = true ∧ X.neg e j = true) ∧ ¬ (X.pos e j = true ∧ X.tir e j = true) ∧
      ¬ (X.neg e j = true ∧ X.tir e j = true) := by
  simp only [findValidExitsFilm]
  refine ⟨?_, ?_, ?_⟩ <;>
  · simp only [Bool.and_eq_true, Bool.not_eq_true']
    rintro ⟨⟨⟨_, a⟩, b⟩, ⟨⟨_, c⟩, d⟩⟩
    simp_all

/-- C12 (film).  An exit flag needs a direction inside the critical cone; a tir flag one outside it. -/
theorem C12_film_cone {nev nt : ℕ} {ns nm : ℝ} (th zl : ℝ) (hs : 0 < ns) (hm : 0 < nm) (hle : nm ≤ ns)
    (z : Fin (nev + 1) → Fin nt → ℝ) (kz : Fin nev → Fin nt → ℝ) (hk : ∀ e j, |kz e j| ≤ 1)
    (e : Fin nev) (j : Fin nt) :
    let X := findValidExitsFilm ns nm th zl z kz
    let sinθ := Real.sqrt (1 - kz e j ^ 2)
    (X.pos e j = true ∨ X.neg e j = true → ns * sinθ < nm) ∧ (X.tir e j = true → nm ≤ ns * sinθ) := by
  intro X sinθ
  have hcone := noTir_iff hs hm hle (hk e j)
  constructor
  · rintro (h | h) <;>
    · simp only [X, findValidExitsFilm, Bool.and_eq_true] at h
      exact hcone.1 h.1.2
  · intro h
    simp only [X, findValidExitsFilm, Bool.and_eq_true, Bool.not_eq_true'] at h
    by_contra hh
    have := hcone.2 (not_le.mp hh)
    rw [this] at h
    exact absurd h.1.2 (by simp)

/-- C12 (sphere).  The three kinds of flag exclude each other, whatever refracted direction `kz_correct` was computed. -/
theorem C12_sphere_flags_exclusive {nev nt : ℕ} (th : ℝ) (x y z : Fin (nev + 1) → Fin nt → ℝ) (kzc : Fin nt → XF)
    (e e' : Fin nev) (j : Fin nt) :
    let X := findValidExitsSphere th x y z kzc
    ¬ (X.pos e j = true ∧ X.neg e' j = true) ∧ ¬ (X.pos e j = true ∧ X.tir e' j = true) ∧
      ¬ (X.neg e j = true ∧ X.tir e' j = true) := by
  simp only [findValidExitsSphere, Bool.and_eq_true, decide_eq_true_iff, Bool.not_not]
  rcases hk : kzc j with r | _ | _ | _
  · simp only [fin_lt, not_isNaN_fin, and_false, not_false_iff, and_true]
    rintro ⟨⟨_, a⟩, ⟨_, b⟩⟩
    linarith
  · refine ⟨?_, ?_, ?_⟩
    · rintro ⟨_, ⟨_, b⟩⟩; exact b
    · rintro ⟨_, ⟨_, b⟩⟩; exact b
    · rintro ⟨_, ⟨_, b⟩⟩; exact b
  · refine ⟨?_, ?_, ?_⟩
    · rintro ⟨⟨_, b⟩, _⟩; exact b
    · rintro ⟨_, ⟨_, b⟩⟩; exact b
    · rintro ⟨_, ⟨_, b⟩⟩; exact b
  · refine ⟨?_, ?_, ?_⟩
    · rintro ⟨⟨_, b⟩, _⟩; exact b
    · rintro ⟨⟨_, b⟩, _⟩; exact b
    · rintro ⟨⟨_, b⟩, _⟩; exact b

/-! ## C13 -/

/-- C13 is FALSE of the code: with a medium of higher index than the sample, nothing is ever flagged as an exit — whatever
the trajectory does — because `np.arcsin(n_medium / n_sample)` is NaN and every comparison with NaN is False. -/
theorem C13_no_exit_into_denser_medium_refuted {nev nt : ℕ} {ns nm : ℝ} (th zl : ℝ) (hs : 0 < ns) (hlt : ns < nm)
    (z : Fin (nev + 1) → Fin nt → ℝ) (kz : Fin nev → Fin nt → ℝ) (e : Fin nev) (j : Fin nt) :
    (findValidExitsFilm ns nm th zl z kz).pos e j = false ∧ (findValidExitsFilm ns nm th zl z kz).neg e j = false := by
  have h : noTirFilm ns nm (kz e j) = false := by
    unfold noTirFilm
    rw [XF.fin_div _ hs.ne']
    have : ¬ (-1 ≤ nm / ns ∧ nm / ns ≤ 1) := by
      rintro ⟨_, h'⟩
      rw [div_le_one hs] at h'
      linarith
    simp [XF.arcsin, this]
  simp [findValidExitsFilm, h]

/-- Consequence of the previous theorem: every trajectory is then reported stuck. -/
theorem C13_all_stuck_in_denser_medium_refuted {nev nt : ℕ} {ns nm : ℝ} (th zl : ℝ) (hs : 0 < ns) (hlt : ns < nm)
    (z : Fin (nev + 1) → Fin nt → ℝ) (kz : Fin nev → Fin nt → ℝ) (j : Fin nt) :
    let X := findValidExitsFilm ns nm th zl z kz
    (findEventIndices X.neg X.pos X.tir).2.2.1 j = nev := by
  intro X
  have h := fun e => C13_no_exit_into_denser_medium_refuted th zl hs hlt z kz e j
  simp only [findEventIndices]
  rw [stuck_cases, if_pos]
  exact ⟨(firstEvent_zero_iff _ _).2 fun e => (h e).2, (firstEvent_zero_iff _ _).2 fun e => (h e).1⟩

/-- C13, the part that holds: with `n_medium ≤ n_sample`, an event at which the trajectory changes to another copy of the
film with a direction inside the critical cone is flagged as an exit.  Missing: the case `n_medium > n_sample`, refuted above. -/
theorem C13_exit_when_medium_not_denser_partial {nev nt : ℕ} {ns nm th zl : ℝ} (hs : 0 < ns) (hm : 0 < nm)
    (hle : nm ≤ ns) (_hth : zl < th) (z : Fin (nev + 1) → Fin nt → ℝ) (kz : Fin nev → Fin nt → ℝ)
    (hk : ∀ e j, |kz e j| ≤ 1) (e : Fin nev) (j : Fin nt)
    (hcross : ∃ b, FirstCrossed ((z e.castSucc j - zl) / (th - zl)) ((z e.succ j - zl) / (th - zl)) b)
    (hcone : ns * Real.sqrt (1 - kz e j ^ 2) < nm) :
    let X := findValidExitsFilm ns nm th zl z kz
    X.pos e j = true ∨ X.neg e j = true := by
  intro X
  obtain ⟨b, hb⟩ := hcross
  rw [firstCrossed_floor] at hb
  have hc := (noTir_iff hs hm hle (hk e j)).2 hcone
  have hpot : (!decide (zFloor th zl (z e.succ j) - zFloor th zl (z e.castSucc j) = 0)) = true := by
    simp only [Bool.not_eq_true', decide_eq_false_iff_not, sub_eq_zero]
    exact hb.1
  simp only [X, findValidExitsFilm, hc, hpot]
  cases posDir (zFloor th zl (z e.castSucc j)) (zFloor th zl (z e.succ j)) <;> simp

/-- Non-vacuity of C13: a film of index 1 in a medium of index 1.5, path straight through at kz = 1: a physical exit
occurs (the far face is crossed) yet no flag is set. -/
example : (0:ℝ) < 1 ∧ (1:ℝ) < 3/2 ∧ FirstCrossed ((3 - 0) / (10 - 0)) ((12 - 0) / (10 - 0)) 1 ∧
    (findValidExitsFilm 1 (3/2) 10 0 (nev := 1) (nt := 1) ![![3], ![12]] ![![1]]).pos 0 0 = false := by
  refine ⟨one_pos, by norm_num, ?_, (C13_no_exit_into_denser_medium_refuted 10 0 one_pos (by norm_num) _ _ 0 0).1⟩
  left
  refine ⟨by norm_num, by norm_num, ?_⟩
  intro c hc
  have : (0:ℝ) < c := lt_trans (by norm_num) hc
  exact_mod_cast this

/-- Non-vacuity of C12_film_cone: both kinds of flag occur.  In a film of index 3/2 and thickness 10 in air a photon passes the front
face from z = 3 to z = -2, once along the normal (an exit) and once nearly parallel to the surface (total reflection). -/
example : (findValidExitsFilm (3/2) 1 10 0 (nev := 1) (nt := 2) ![![3, 3], ![-2, -2]] ![![-1, -1/10]]).neg 0 0 = true ∧
    (findValidExitsFilm (3/2) 1 10 0 (nev := 1) (nt := 2) ![![3, 3], ![-2, -2]] ![![-1, -1/10]]).tir 0 1 = true := by
  have f1 : zFloor 10 0 (-2) = -1 := by
    unfold zFloor; rw [Int.floor_eq_iff]; norm_num
  have f2 : zFloor 10 0 3 = 0 := by
    unfold zFloor; rw [Int.floor_eq_iff]; norm_num
  have h1 : noTirFilm (3/2) 1 (-1) = true := by
    rw [noTir_iff (by norm_num) one_pos (by norm_num) (by norm_num)]; norm_num
  have h2 : noTirFilm (3/2) 1 (-1/10) = false := by
    rw [← Bool.not_eq_true, noTir_iff (by norm_num) one_pos (by norm_num) (by norm_num [abs_le])]
    rw [not_lt]
    have : (2/3:ℝ) ≤ Real.sqrt (1 - (-1/10) ^ 2) := Real.le_sqrt_of_sq_le (by norm_num)
    linarith
  constructor
  · simp [findValidExitsFilm, f1, f2, h1, posDir]
  · simp [findValidExitsFilm, f1, f2, h2, posDir]

end Verif.Props
