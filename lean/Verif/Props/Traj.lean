import Verif.Model.Traj
import Mathlib.Tactic.Positivity

/-!
# C31–C33: absorb, scatter, move
-/

namespace Verif.Props
open Verif.Traj Verif.Spec

variable {nt : ℕ}

theorem cumsum_eq (a : ℕ → ℝ) (i : ℕ) : cumsum a i = ∑ n ∈ Finset.range (i + 1), a n := by
  induction i with
  | zero => simp [cumsum]
  | succ i ih => rw [cumsum, ih, Finset.sum_range_succ _ (i + 1)]

theorem cumsum_mono {a : ℕ → ℝ} (h : ∀ n, 0 ≤ a n) (i : ℕ) : cumsum a i ≤ cumsum a (i + 1) := by
  have := h (i + 1); rw [cumsum]; linarith

theorem cumsum_nonneg {a : ℕ → ℝ} (h : ∀ n, 0 ≤ a n) (i : ℕ) : 0 ≤ cumsum a i := by
  rw [cumsum_eq]; exact Finset.sum_nonneg fun n _ => h n

/-- C31.  The weight of event `i` after `absorb` is the weight before times `exp(-mu_abs L_i)`, where `L_i` is the path length
travelled up to and including event `i`. -/
theorem C31_absorb_beer_lambert (w : ℕ → Fin nt → ℝ) (mu : ℝ) (s : ℕ → Fin nt → ℝ) (i : ℕ) (j : Fin nt) :
    absorb w mu s i j = w i j * Real.exp (-(mu * ∑ n ∈ Finset.range (i + 1), s n j)) := by
  rw [absorb, cumsum_eq]

/-- C31.  With a non-negative absorption coefficient and non-negative steps, weights in [0,1] stay in [0,1], no weight grows,
and weights that do not increase along the trajectory keep that property; strictly positive weights stay positive. -/
theorem C31_absorb_bounds (w : ℕ → Fin nt → ℝ) (mu : ℝ) (s : ℕ → Fin nt → ℝ) (hmu : 0 ≤ mu) (hs : ∀ n j, 0 ≤ s n j)
    (i : ℕ) (j : Fin nt) :
    (IsFraction (w i j) → IsFraction (absorb w mu s i j)) ∧ (0 ≤ w i j → absorb w mu s i j ≤ w i j) ∧
    (0 < w i j → 0 < absorb w mu s i j) ∧
    (0 ≤ w (i + 1) j → w (i + 1) j ≤ w i j → absorb w mu s (i + 1) j ≤ absorb w mu s i j) := by
  have hc := cumsum_nonneg (a := fun n => s n j) (fun n => hs n j) i
  have hm := cumsum_mono (a := fun n => s n j) (fun n => hs n j) i
  have he : Real.exp (-(mu * cumsum (fun n => s n j) i)) ≤ 1 := by
    rw [Real.exp_le_one_iff]; nlinarith [mul_nonneg hmu hc]
  have hle : 0 ≤ w i j → absorb w mu s i j ≤ w i j := fun h => by
    rw [absorb]; nlinarith
  refine ⟨fun h => ⟨mul_nonneg h.1 (Real.exp_nonneg _), (hle h.1).trans h.2⟩, hle, fun h => mul_pos h (Real.exp_pos _), ?_⟩
  intro h0 h1
  refine mul_le_mul h1 ?_ (Real.exp_nonneg _) (h0.trans h1)
  rw [Real.exp_le_exp]
  nlinarith [mul_le_mul_of_nonneg_left hm hmu]

/-- C31.  No absorption leaves the weights alone; absorbing twice adds the coefficients. -/
theorem C31_absorb_zero_add (w : ℕ → Fin nt → ℝ) (s : ℕ → Fin nt → ℝ) (m1 m2 : ℝ) :
    absorb w 0 s = w ∧ absorb (absorb w m1 s) m2 s = absorb w (m1 + m2) s := by
  constructor
  · funext i j; simp [absorb]
  · funext i j
    simp only [absorb]
    rw [mul_assoc, ← Real.exp_add]
    congr 2; ring

/-- Non-vacuity of C31: two steps of length 1 with coefficient 1 leave `exp(-2)` of a unit weight. -/
example : absorb (nt := 1) (fun _ _ => 1) 1 (fun _ _ => 1) 1 0 = Real.exp (-2) := by
  rw [C31_absorb_beer_lambert]; norm_num [Finset.sum_range_succ]

/-! ### scatter -/

theorem turn_dot (st ct sp cp : ℝ) (h1 : st ^ 2 + ct ^ 2 = 1) (h2 : sp ^ 2 + cp ^ 2 = 1) (a b : V3) :
    V3.dot (turn st ct sp cp a) (turn st ct sp cp b) = V3.dot a b := by
  have e1 : st ^ 2 = 1 - ct ^ 2 := by linarith
  have e2 : sp ^ 2 = 1 - cp ^ 2 := by linarith
  simp only [V3.dot, turn]
  linear_combination (a.x * ct + a.z * st) * (b.x * ct + b.z * st) * h2 + a.y * b.y * h2 +
    (a.x * b.x + a.z * b.z) * h1

/-- rows after the first `m` iterations -/
theorem scatter_loop (kn : ℕ → Fin nt → V3) (st ct sp cp : ℕ → Fin nt → ℝ) (m : ℕ) :
    let r := (List.range' 1 m).foldl (scatterBody st ct sp cp) kn
    r 0 = kn 0 ∧ (∀ n, n < m → ∀ j, r (n + 1) j = turn (st n j) (ct n j) (sp n j) (cp n j) (r n j)) ∧
      ∀ n, m < n → r n = kn n := by
  induction m with
  | zero => exact ⟨rfl, fun n h => absurd h (Nat.not_lt_zero _), fun _ _ => rfl⟩
  | succ m ih =>
    obtain ⟨h0, h1, h2⟩ := ih
    rw [List.range'_concat, List.foldl_append]
    simp only [List.foldl_cons, List.foldl_nil, one_mul]
    set r := (List.range' 1 m).foldl (scatterBody st ct sp cp) kn with hr
    have hb : ∀ n, scatterBody st ct sp cp r (1 + m) n = if n = 1 + m then
        (fun j => turn (st m j) (ct m j) (sp m j) (cp m j) (r m j)) else r n := by
      intro n
      simp only [scatterBody, Function.update_apply, Nat.add_sub_cancel_left]
    refine ⟨by rw [hb, if_neg (by omega), h0], ?_, ?_⟩
    · intro n hn j
      rw [hb (n + 1), hb n, if_neg (show n ≠ 1 + m by omega)]
      by_cases hnm : n = m
      · subst hnm; rw [if_pos (by omega)]
      · rw [if_neg (by omega)]; exact h1 n (by omega) j
    · intro n hn
      rw [hb, if_neg (by omega)]; exact h2 n (by omega)

/-- sines and cosines that belong to some pair of angles -/
def Consistent (st ct sp cp : ℕ → Fin nt → ℝ) : Prop :=
  ∀ n j, st n j ^ 2 + ct n j ^ 2 = 1 ∧ sp n j ^ 2 + cp n j ^ 2 = 1

/-- C32.  Unit initial directions and consistent sines and cosines give unit directions at every event; the first direction
is unchanged, and repeating the call with the same angles changes nothing. -/
theorem C32_scatter_unit (nevents : ℕ) (kn : ℕ → Fin nt → V3) (st ct sp cp : ℕ → Fin nt → ℝ)
    (hc : Consistent st ct sp cp) :
    (∀ j, scatter nevents kn st ct sp cp 0 j = kn 0 j) ∧
    (∀ n j, n < nevents → (scatter nevents kn st ct sp cp n j).normSq = (kn 0 j).normSq) ∧
    scatter nevents (scatter nevents kn st ct sp cp) st ct sp cp = scatter nevents kn st ct sp cp := by
  obtain ⟨h0, h1, h2⟩ := scatter_loop kn st ct sp cp (nevents - 1)
  refine ⟨fun j => congrFun h0 j, ?_, ?_⟩
  · intro n j hn
    induction n with
    | zero => exact congrArg V3.normSq (congrFun h0 j)
    | succ n ih =>
      have : (scatter nevents kn st ct sp cp (n + 1) j) = _ := h1 n (by omega) j
      rw [this, V3.normSq, turn_dot _ _ _ _ (hc n j).1 (hc n j).2]
      exact ih (by omega)
  · obtain ⟨g0, g1, g2⟩ := scatter_loop (scatter nevents kn st ct sp cp) st ct sp cp (nevents - 1)
    have key : ∀ n, n < nevents → scatter nevents (scatter nevents kn st ct sp cp) st ct sp cp n =
        scatter nevents kn st ct sp cp n := by
      intro n
      induction n with
      | zero => intro _; exact g0
      | succ n ih =>
        intro hn
        funext j
        have e1 : scatter nevents (scatter nevents kn st ct sp cp) st ct sp cp (n + 1) j = _ := g1 n (by omega) j
        have e2 : scatter nevents kn st ct sp cp (n + 1) j = _ := h1 n (by omega) j
        rw [e1, e2]
        exact congrArg _ (congrFun (ih (by omega)) j)
    funext n
    by_cases hn : n < nevents
    · exact key n hn
    · cases n with
      | zero => exact g0
      | succ n => exact g2 (n + 1) (by omega)

/-- C32, the part of the angle statement that holds: consecutive directions enclose exactly the supplied angle when the
earlier one is along the z axis (in particular at the first scattering event under normal incidence). -/
theorem C32_scatter_angle_partial (nevents : ℕ) (kn : ℕ → Fin nt → V3) (st ct sp cp : ℕ → Fin nt → ℝ)
    (n : ℕ) (j : Fin nt) (hn : n + 1 < nevents)
    (hz : (scatter nevents kn st ct sp cp n j).x = 0 ∧ (scatter nevents kn st ct sp cp n j).y = 0) :
    V3.dot (scatter nevents kn st ct sp cp n j) (scatter nevents kn st ct sp cp (n + 1) j) =
      (scatter nevents kn st ct sp cp n j).normSq * ct n j := by
  obtain ⟨h0, h1, h2⟩ := scatter_loop kn st ct sp cp (nevents - 1)
  have e : (scatter nevents kn st ct sp cp (n + 1) j) = _ := h1 n (by omega) j
  rw [e]
  change V3.dot (scatter nevents kn st ct sp cp n j) (turn _ _ _ _ (scatter nevents kn st ct sp cp n j)) = _
  simp only [V3.dot, V3.normSq, turn, hz.1, hz.2]
  ring

/-- C32 is false of the code in general: the rotation is about the fixed axes, not about the previous direction.  A photon
travelling along y "scattered" by 90 degrees (`costheta = 0`) with azimuth 0 keeps its direction. -/
theorem C32_scatter_angle_refuted :
    ∃ (kn : ℕ → Fin 1 → V3) (st ct sp cp : ℕ → Fin 1 → ℝ), Consistent st ct sp cp ∧ (kn 0 0).normSq = 1 ∧
      V3.dot (scatter 2 kn st ct sp cp 0 0) (scatter 2 kn st ct sp cp 1 0) = 1 ∧ ct 0 0 = 0 := by
  refine ⟨fun _ _ => ⟨0, 1, 0⟩, fun _ _ => 1, fun _ _ => 0, fun _ _ => 0, fun _ _ => 1, ?_, ?_, ?_, rfl⟩
  · intro n j; norm_num
  · norm_num [V3.normSq, V3.dot]
  · obtain ⟨h0, h1, h2⟩ := scatter_loop (nt := 1) (fun _ _ => ⟨0, 1, 0⟩) (fun _ _ => 1) (fun _ _ => 0) (fun _ _ => 0)
      (fun _ _ => 1) 1
    have e : scatter (nt := 1) 2 (fun _ _ => ⟨0, 1, 0⟩) (fun _ _ => 1) (fun _ _ => 0) (fun _ _ => 0) (fun _ _ => 1) 1 0 = _ :=
      h1 0 one_pos 0
    have e0 : scatter (nt := 1) 2 (fun _ _ => ⟨0, 1, 0⟩) (fun _ _ => 1) (fun _ _ => 0) (fun _ _ => 0) (fun _ _ => 1) 0 0 = _ :=
      congrFun h0 0
    rw [e, e0]
    have e0' := congrFun h0 0
    rw [e0']
    norm_num [V3.dot, turn]

/-- Specification of scattering in the local frame: the frame carried by the photon after the angles `a₀, a₁, …, aₙ₋₁` (in
order of occurrence) maps local to global vectors; each event turns the frame about its own axes. -/
noncomputable def localFrame : List (ℝ × ℝ × ℝ × ℝ) → V3 → V3
  | [] => id
  | a :: l => turn a.1 a.2.1 a.2.2.1 a.2.2.2 ∘ localFrame l

theorem localFrame_append (l1 l2 : List (ℝ × ℝ × ℝ × ℝ)) : localFrame (l1 ++ l2) = localFrame l1 ∘ localFrame l2 := by
  induction l1 with
  | nil => rfl
  | cons a l ih => rw [List.cons_append, localFrame, ih]; rfl

/-- the angles of events `0..n-1` of trajectory `j` -/
def history (st ct sp cp : ℕ → Fin nt → ℝ) (j : Fin nt) (n : ℕ) : List (ℝ × ℝ × ℝ × ℝ) :=
  (List.range n).map fun i => (st i j, ct i j, sp i j, cp i j)

/-- Sanity of the specification: in the local-frame scheme consecutive directions do enclose the sampled angle. -/
theorem localFrame_angle (l : List (ℝ × ℝ × ℝ × ℝ)) (hl : ∀ a ∈ l, a.1 ^ 2 + a.2.1 ^ 2 = 1 ∧ a.2.2.1 ^ 2 + a.2.2.2 ^ 2 = 1)
    (a : ℝ × ℝ × ℝ × ℝ) : V3.dot (localFrame l ⟨0, 0, 1⟩) (localFrame (l ++ [a]) ⟨0, 0, 1⟩) = a.2.1 := by
  have hdot : ∀ (l : List (ℝ × ℝ × ℝ × ℝ)), (∀ a ∈ l, a.1 ^ 2 + a.2.1 ^ 2 = 1 ∧ a.2.2.1 ^ 2 + a.2.2.2 ^ 2 = 1) →
      ∀ u v, V3.dot (localFrame l u) (localFrame l v) = V3.dot u v := by
    intro l
    induction l with
    | nil => intro _ _ _; rfl
    | cons b l ih =>
      intro h u v
      have hb := h b (List.mem_cons_self ..)
      rw [localFrame]
      simp only [Function.comp]
      rw [turn_dot _ _ _ _ hb.1 hb.2]
      exact ih (fun c hc => h c (List.mem_cons_of_mem _ hc)) u v
  rw [localFrame_append, Function.comp, hdot l hl]
  simp [localFrame, V3.dot, turn]

/-- C32, what the code computes instead: the direction of event `n` is the direction a photon starting along z would have
after being scattered, in its own local frame, by the same angles in *reverse* order of occurrence.  (For independent
identically distributed angles the reverse order is equally likely, so the distribution of each single direction is right
although the joint history is not.) -/
theorem C32_scatter_reversed_history_partial (nevents : ℕ) (kn : ℕ → Fin nt → V3) (st ct sp cp : ℕ → Fin nt → ℝ) (j : Fin nt)
    (h0 : kn 0 j = ⟨0, 0, 1⟩) (n : ℕ) (hn : n < nevents) :
    scatter nevents kn st ct sp cp n j = localFrame (history st ct sp cp j n).reverse ⟨0, 0, 1⟩ := by
  obtain ⟨g0, g1, -⟩ := scatter_loop kn st ct sp cp (nevents - 1)
  induction n with
  | zero => exact (congrFun g0 j).trans h0
  | succ n ih =>
    have e : scatter nevents kn st ct sp cp (n + 1) j = _ := g1 n (by omega) j
    rw [e]
    rw [history, List.range_succ, List.map_append, List.reverse_append]
    simp only [List.map_cons, List.map_nil, List.reverse_cons, List.reverse_nil, List.nil_append, List.cons_append,
      localFrame, Function.comp]
    exact congrArg _ (ih (by omega))

/-- Non-vacuity of C32: consistent sines and cosines, unit directions. -/
example : Consistent (nt := 1) (fun n _ => Real.sin n) (fun n _ => Real.cos n) (fun n _ => Real.sin n) (fun n _ => Real.cos n) :=
  fun n _ => ⟨Real.sin_sq_add_cos_sq _, Real.sin_sq_add_cos_sq _⟩

/-! ### move -/

/-- C33.  The first position is kept and each later one is the previous one plus the step times the direction. -/
theorem C33_move_steps (p : ℕ → Fin nt → V3) (s : ℕ → Fin nt → ℝ) (k : ℕ → Fin nt → V3) (i : ℕ) (j : Fin nt) :
    move p s k 0 j = p 0 j ∧ V3.sub (move p s k (i + 1) j) (move p s k i j) = V3.smul (s i j) (k i j) := by
  refine ⟨rfl, ?_⟩
  show V3.sub (V3.add (move p s k i j) (V3.smul (s i j) (k i j))) (move p s k i j) = _
  ext <;> simp [V3.sub, V3.add]

theorem norm_smul' (c : ℝ) (v : V3) : (V3.smul c v).norm = |c| * v.norm := by
  rw [V3.norm, V3.norm, show (V3.smul c v).normSq = c ^ 2 * v.normSq by simp [V3.normSq, V3.dot, V3.smul]; ring,
    Real.sqrt_mul (sq_nonneg c), Real.sqrt_sq_eq_abs]

theorem norm_add_le' (a b : V3) : (V3.add a b).norm ≤ a.norm + b.norm := by
  have na : 0 ≤ a.normSq := by simp only [V3.normSq, V3.dot]; nlinarith [sq_nonneg a.x, sq_nonneg a.y, sq_nonneg a.z]
  have nb : 0 ≤ b.normSq := by simp only [V3.normSq, V3.dot]; nlinarith [sq_nonneg b.x, sq_nonneg b.y, sq_nonneg b.z]
  have ha : 0 ≤ a.norm := Real.sqrt_nonneg a.normSq
  have hb : 0 ≤ b.norm := Real.sqrt_nonneg b.normSq
  have hd : V3.dot a b ≤ a.norm * b.norm := by
    have : V3.dot a b ≤ Real.sqrt (a.normSq * b.normSq) := by
      apply Real.le_sqrt_of_sq_le
      simp only [V3.normSq, V3.dot]
      nlinarith [sq_nonneg (a.x * b.y - a.y * b.x), sq_nonneg (a.x * b.z - a.z * b.x), sq_nonneg (a.y * b.z - a.z * b.y)]
    rwa [Real.sqrt_mul na] at this
  rw [V3.norm, Real.sqrt_le_left (add_nonneg ha hb)]
  have e : (V3.add a b).normSq = a.normSq + b.normSq + 2 * V3.dot a b := by
    simp only [V3.normSq, V3.dot, V3.add]; ring
  rw [e]
  have sa : a.norm ^ 2 = a.normSq := Real.sq_sqrt na
  have sb : b.norm ^ 2 = b.normSq := Real.sq_sqrt nb
  nlinarith

/-- C33.  For unit directions and non-negative steps consecutive positions are a step apart, and no position is farther from
the start than the path length. -/
theorem C33_move_distances (p : ℕ → Fin nt → V3) (s : ℕ → Fin nt → ℝ) (k : ℕ → Fin nt → V3) (j : Fin nt)
    (hs : ∀ n, 0 ≤ s n j) (nev : ℕ) (hk : ∀ n, n < nev → (k n j).norm = 1) (i : ℕ) (hi : i ≤ nev) :
    (i < nev → (V3.sub (move p s k (i + 1) j) (move p s k i j)).norm = s i j) ∧
    (V3.sub (move p s k i j) (p 0 j)).norm ≤ ∑ n ∈ Finset.range i, s n j := by
  constructor
  · intro h
    rw [(C33_move_steps p s k i j).2, norm_smul', hk i h, abs_of_nonneg (hs i), mul_one]
  · induction i with
    | zero => simp [move, cumsum, displacement, V3.sub, V3.norm, V3.normSq, V3.dot]
    | succ i ih =>
      have hstep := (C33_move_steps p s k i j).2
      have e : V3.sub (move p s k (i + 1) j) (p 0 j) = V3.add (V3.sub (move p s k i j) (p 0 j)) (V3.smul (s i j) (k i j)) := by
        rw [← hstep]; ext <;> simp only [V3.sub, V3.add] <;> ring
      rw [e, Finset.sum_range_succ]
      refine (norm_add_le' _ _).trans (add_le_add (ih (by omega)) ?_)
      rw [norm_smul', hk i (by omega), abs_of_nonneg (hs i), mul_one]

/-- C33.  Repeating `move` with the same steps and directions changes nothing, and the result depends on the previous
position array only through its first row. -/
theorem C33_move_idempotent (p q : ℕ → Fin nt → V3) (s : ℕ → Fin nt → ℝ) (k : ℕ → Fin nt → V3) :
    move (move p s k) s k = move p s k ∧ ((∀ j, p 0 j = q 0 j) → move p s k = move q s k) := by
  have key : ∀ p q : ℕ → Fin nt → V3, (∀ j, p 0 j = q 0 j) → move p s k = move q s k := by
    intro p q h
    funext i j
    have : (fun n => displacement p s k n j) = fun n => displacement q s k n j := by
      funext n; cases n with
      | zero => exact h j
      | succ n => rfl
    simp only [move, this]
  exact ⟨key _ _ fun j => rfl, key p q⟩

/-- Non-vacuity of C33: two steps of lengths 2 and 3 along z and x from the origin. -/
example : move (nt := 1) (fun _ _ => ⟨0, 0, 0⟩) (fun n _ => n + 2) (fun n _ => if n = 0 then ⟨0, 0, 1⟩ else ⟨1, 0, 0⟩) 2 0 =
    ⟨3, 0, 2⟩ := by
  simp only [move, cumsum, displacement]
  show V3.add (V3.add _ _) _ = _
  ext <;> norm_num [V3.add, V3.smul]

end Verif.Props
