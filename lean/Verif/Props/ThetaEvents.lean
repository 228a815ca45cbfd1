import Verif.Model.ThetaEvents
import Verif.Props.Events
import Verif.Props.Traj

/-!
# C160: the scattering angles of reflected trajectories
-/

namespace Verif.Props
noncomputable section
open Classical Verif.Spec Verif.Events Verif.Traj
open Verif (PyErr)

variable {nt : ℕ}

/-- the entry for event `ev` and trajectory `j`: the angle `theta ev j` if the trajectory is reflected at that event, otherwise 0 (specification) -/
def angleAt (theta : ℕ → Fin nt → ℝ) (ri : Fin nt → ℕ) (ev : ℕ) (j : Fin nt) : ℝ := if ri j = ev then theta ev j else 0

theorem thetas_loop (rows : ℕ) (theta : ℕ → Fin nt → ℝ) (ri : Fin nt → ℕ) (m : ℕ) :
    ((∃ ev j, 1 ≤ ev ∧ ev ≤ m ∧ rows ≤ ev ∧ ri j = ev) → (List.range' 1 m).foldlM (m := Except PyErr)
      (fun (s : ℕ → Fin nt → ℝ) ev => if rows ≤ ev ∧ ∃ j, ri j = ev then .error .indexError
        else .ok (Function.update s ev fun j => if ri j = ev then theta ev j else s ev j)) (fun _ _ => 0) = .error .indexError) ∧
    ((¬ ∃ ev j, 1 ≤ ev ∧ ev ≤ m ∧ rows ≤ ev ∧ ri j = ev) → (List.range' 1 m).foldlM (m := Except PyErr)
      (fun (s : ℕ → Fin nt → ℝ) ev => if rows ≤ ev ∧ ∃ j, ri j = ev then .error .indexError
        else .ok (Function.update s ev fun j => if ri j = ev then theta ev j else s ev j)) (fun _ _ => 0) =
        .ok fun ev j => if 1 ≤ ev ∧ ev ≤ m then angleAt theta ri ev j else 0) := by
  induction m with
  | zero =>
    refine ⟨fun ⟨ev, j, h1, h2, _⟩ => by omega, fun _ => ?_⟩
    show Except.ok _ = Except.ok _
    congr 1
    funext ev j
    rw [if_neg (by omega)]
  | succ m ih =>
    rw [List.range'_1_concat, List.foldlM_append]
    by_cases hm : ∃ ev j, 1 ≤ ev ∧ ev ≤ m ∧ rows ≤ ev ∧ ri j = ev
    · rw [ih.1 hm]
      exact ⟨fun _ => rfl, fun h => absurd (by obtain ⟨ev, j, h1, h2, h3⟩ := hm; exact ⟨ev, j, h1, by omega, h3⟩) h⟩
    rw [ih.2 hm]
    simp only [List.foldlM_cons, List.foldlM_nil, Bind.bind, Except.bind]
    by_cases hc : rows ≤ 1 + m ∧ ∃ j, ri j = 1 + m
    · rw [if_pos hc]
      refine ⟨fun _ => rfl, fun h => absurd ?_ h⟩
      obtain ⟨h1, j, h2⟩ := hc
      exact ⟨1 + m, j, by omega, by omega, h1, h2⟩
    · rw [if_neg hc]
      refine ⟨fun h => absurd h ?_, fun _ => ?_⟩
      · rintro ⟨ev, j, h1, h2, h3, h4⟩
        rcases Nat.lt_or_ge m ev with h | h
        · have : ev = 1 + m := by omega
          subst this
          exact hc ⟨h3, j, h4⟩
        · exact hm ⟨ev, j, h1, h, h3, h4⟩
      · show Except.ok _ = Except.ok _
        congr 1
        funext ev j
        by_cases he : ev = 1 + m
        · subst he
          have e1 : 1 ≤ 1 + m ∧ 1 + m ≤ m + 1 := by omega
          have e2 : ¬(1 ≤ 1 + m ∧ 1 + m ≤ m) := by omega
          rw [Function.update_self]
          simp only [if_pos e1, if_neg e2]
          rfl
        · rw [Function.update_of_ne he]
          by_cases h : 1 ≤ ev ∧ ev ≤ m
          · rw [if_pos h, if_pos (by omega)]
          · rw [if_neg h, if_neg (by omega)]

/-- C160: the table has an angle for each trajectory that is reflected at an event before the last one, at that event, and zeros elsewhere, if `theta`
has a row for each event.  What is missing: a trajectory reflected at the last event has no angle (`C160_last_event_refuted`), the angles that
`sample_angles` returns have one row less (`C160_sampled_angles_refuted`), and the angle is not one by which the trajectory was turned
(`C160_angle_not_used_refuted`). -/
theorem C160_angle_table_partial (rows : ℕ) (theta : ℕ → Fin nt → ℝ) (ri : Fin nt → ℕ) (nevents : ℕ) (h : nevents ≤ rows) :
    ∃ T, calcThetas rows theta ri nevents = .ok T ∧
      (∀ j, 1 ≤ ri j → ri j < nevents → T (ri j) j = theta (ri j) j) ∧
      ∀ ev j, (ri j ≠ ev ∨ ev = 0 ∨ nevents ≤ ev) → T ev j = 0 := by
  refine ⟨_, (thetas_loop rows theta ri (nevents - 1)).2 ?_, fun j h1 h2 => ?_, fun ev j h1 => ?_⟩
  · rintro ⟨ev, j, h1, h2, h3, -⟩; omega
  · rw [if_pos (by omega), angleAt, if_pos rfl]
  · unfold angleAt
    by_cases h2 : 1 ≤ ev ∧ ev ≤ nevents - 1
    · rw [if_pos h2, if_neg]
      rcases h1 with h1 | h1 | h1 <;> omega
    · rw [if_neg h2]

/-- Non-vacuity: three trajectories, reflected at events 1 and 2 of 3 and not at all. -/
example : ∃ T, calcThetas 3 (fun i (j : Fin 3) => (i + j + 1 : ℝ)) ![1, 2, 0] 3 = .ok T ∧ T 1 0 = 2 ∧ T 2 1 = 4 ∧ T 1 1 = 0 ∧ T 0 2 = 0 := by
  obtain ⟨T, h, h1, h2⟩ := C160_angle_table_partial 3 (fun i (j : Fin 3) => (i + j + 1 : ℝ)) ![1, 2, 0] 3 le_rfl
  refine ⟨T, h, ?_, ?_, h2 1 1 (Or.inl (by simp)), h2 0 2 (Or.inr (Or.inl rfl))⟩
  · have := h1 0 (by simp) (by simp)
    simp at this
    rw [this]; norm_num
  · have := h1 1 (by simp) (by simp)
    simp at this
    rw [this]; norm_num

/-- C160, refuted: a trajectory that is reflected at the last event has no angle in the table, as if it had not been reflected. -/
theorem C160_last_event_refuted (rows : ℕ) (theta : ℕ → Fin nt → ℝ) (ri : Fin nt → ℕ) (nevents : ℕ) (T : ℕ → Fin nt → ℝ)
    (h : calcThetas rows theta ri nevents = .ok T) (j : Fin nt) (hj : ri j = nevents) : ∀ ev, T ev j = 0 := by
  intro ev
  by_cases hm : ∃ ev j, 1 ≤ ev ∧ ev ≤ nevents - 1 ∧ rows ≤ ev ∧ ri j = ev
  · have := (thetas_loop rows theta ri (nevents - 1)).1 hm
    exact (nomatch h.symm.trans this)
  · have := h.symm.trans ((thetas_loop rows theta ri (nevents - 1)).2 hm)
    injection this with this
    rw [this]
    dsimp only
    split
    · rw [angleAt, if_neg (by omega)]
    · rfl

/-- Non-vacuity: a trajectory reflected at the last of three events. -/
example : ∃ T, calcThetas 3 (fun _ (_ : Fin 1) => (1 : ℝ)) (fun _ => 3) 3 = .ok T := 
  (C160_angle_table_partial 3 (fun _ (_ : Fin 1) => (1 : ℝ)) (fun _ => 3) 3 le_rfl).imp fun _ h => h.1

/-- C160, refuted: with the angles that `sample_angles` returns for a simulation of `nevents` events, the function fails if a trajectory is reflected at
the last but one event: there are only `nevents - 1` rows of angles. -/
theorem C160_sampled_angles_refuted {num : ℕ} (nevents : ℕ) (p : Fin num → ℝ) (min_angle : ℝ) (draw : ℕ → Fin nt → Fin num) (rand : ℕ → Fin nt → ℝ)
    (ang : Angles nt) (h : sampleAngles1 nevents p min_angle draw rand = .ok ang) (ri : Fin nt → ℕ) (j : Fin nt) (hn : 2 ≤ nevents)
    (hj : ri j = nevents - 1) : calcThetas ang.rows ang.theta ri nevents = .error .indexError := by
  have hrows : ang.rows = nevents - 1 := by
    unfold sampleAngles1 at h
    dsimp only at h
    split at h
    · injection h with h
      rw [← h]; rfl
    · cases h
  exact (thetas_loop ang.rows ang.theta ri (nevents - 1)).1 ⟨nevents - 1, j, by omega, le_rfl, hrows.le, hj⟩

/-- Non-vacuity: isotropic scattering at three angles, two events, a trajectory reflected at the first. -/
example : ∃ ang : Angles 1, sampleAngles1 2 (fun _ : Fin 3 => (1 : ℝ)) 0 (fun _ _ => 1) (fun _ _ => 0) = .ok ang := by
  obtain ⟨ang, h, -⟩ := C35_sample_angles_1d (nt := 1) 2 (fun _ : Fin 3 => (1 : ℝ)) 0 (fun _ _ => 1) (fun _ _ => 0) (fun _ => zero_le_one) le_rfl
    Real.pi_pos.le (by
      simp only [solidWeight, linspace, Fin.sum_univ_three]
      norm_num
      rw [mul_div_cancel₀ _ (two_ne_zero), Real.sin_pi]
      norm_num) (fun _ _ => by norm_num)
  exact ⟨ang, h⟩

theorem scatter_prefix (N m : ℕ) (kn : ℕ → Fin nt → V3) {st ct sp cp st' ct' sp' cp' : ℕ → Fin nt → ℝ}
    (h : ∀ i < m, ∀ j, st i j = st' i j ∧ ct i j = ct' i j ∧ sp i j = sp' i j ∧ cp i j = cp' i j) :
    ∀ i ≤ m, scatter N kn st ct sp cp i = scatter N kn st' ct' sp' cp' i := by
  obtain ⟨a0, a1, a2⟩ := scatter_loop kn st ct sp cp (N - 1)
  obtain ⟨b0, b1, b2⟩ := scatter_loop kn st' ct' sp' cp' (N - 1)
  intro i
  induction i with
  | zero => intro _; exact a0.trans b0.symm
  | succ i ih =>
    intro hi
    rcases Nat.lt_or_ge i (N - 1) with hN | hN
    · funext j
      obtain ⟨h1, h2, h3, h4⟩ := h i (by omega) j
      have e1 : scatter N kn st ct sp cp (i + 1) j = _ := a1 i hN j
      have e2 : scatter N kn st' ct' sp' cp' (i + 1) j = _ := b1 i hN j
      rw [e1, e2, h1, h2, h3, h4]
      exact congrArg _ (congrFun (ih (by omega)) j)
    · exact (a2 (i + 1) (by omega)).trans (b2 (i + 1) (by omega)).symm

/-- C160, refuted: the angle that is listed for a reflected trajectory has had no influence on it.  If only that angle had been different, the trajectory
would have been the same up to where it leaves the sample, and further: directions up to row `ri j`, positions up to row `ri j + 1` (it leaves
on the way to the position of row `ri j`).  But the table would list the different angle. -/
theorem C160_angle_not_used_refuted (N rows : ℕ) (kn p : ℕ → Fin nt → V3) (s theta phi : ℕ → Fin nt → ℝ) (ri : Fin nt → ℕ) (j : Fin nt)
    (h1 : 1 ≤ ri j) (hN : ri j < N) (hrows : N ≤ rows) (x : ℝ) :
    let other : ℕ → Fin nt → ℝ := fun i j' => if i = ri j ∧ j' = j then x else theta i j'
    let k := fun θ : ℕ → Fin nt → ℝ => scatter N kn (fun i j => Real.sin (θ i j)) (fun i j => Real.cos (θ i j)) (fun i j => Real.sin (phi i j))
      (fun i j => Real.cos (phi i j))
    (∀ i ≤ ri j, k other i = k theta i) ∧ (∀ i ≤ ri j + 1, ∀ j', move p s (k other) i j' = move p s (k theta) i j') ∧
      ∃ T T', calcThetas rows theta ri N = .ok T ∧ calcThetas rows other ri N = .ok T' ∧ T (ri j) j = theta (ri j) j ∧ T' (ri j) j = x := by
  intro other k
  have hk : ∀ i ≤ ri j, k other i = k theta i := by
    refine scatter_prefix N (ri j) kn fun i hi j' => ?_
    have : other i j' = theta i j' := if_neg fun h => by omega
    rw [this]
    exact ⟨rfl, rfl, rfl, rfl⟩
  refine ⟨hk, fun i hi j' => ?_, ?_⟩
  · unfold move
    have : ∀ m ≤ i, displacement p s (k other) m j' = displacement p s (k theta) m j' := by
      intro m hm
      cases m with
      | zero => rfl
      | succ m =>
        show V3.smul _ (k other m j') = V3.smul _ (k theta m j')
        rw [hk m (by omega)]
    clear hi
    induction i with
    | zero => exact this 0 le_rfl
    | succ i ih =>
      show cumsum _ i + _ = cumsum _ i + _
      rw [ih fun m hm => this m (by omega)]
      exact congrArg _ (this (i + 1) le_rfl)
  · obtain ⟨T, e1, e2, -⟩ := C160_angle_table_partial rows theta ri N hrows
    obtain ⟨T', f1, f2, -⟩ := C160_angle_table_partial rows other ri N hrows
    exact ⟨T, T', e1, f1, e2 j h1 hN, (f2 j h1 hN).trans (if_pos ⟨rfl, rfl⟩)⟩

/-- The last angle by which a trajectory reflected at event `ev ≥ 2` was turned is that of row `ev - 2`. -/
theorem C160_last_turn (N : ℕ) (kn : ℕ → Fin nt → V3) (theta phi : ℕ → Fin nt → ℝ) (ev : ℕ) (h2 : 2 ≤ ev) (hN : ev ≤ N) (j : Fin nt) :
    let k := scatter N kn (fun i j => Real.sin (theta i j)) (fun i j => Real.cos (theta i j)) (fun i j => Real.sin (phi i j))
      (fun i j => Real.cos (phi i j))
    k (ev - 1) j = turn (Real.sin (theta (ev - 2) j)) (Real.cos (theta (ev - 2) j)) (Real.sin (phi (ev - 2) j)) (Real.cos (phi (ev - 2) j))
      (k (ev - 2) j) := by
  intro k
  obtain ⟨-, a1, -⟩ := scatter_loop kn (fun i j => Real.sin (theta i j)) (fun i j => Real.cos (theta i j)) (fun i j => Real.sin (phi i j))
    (fun i j => Real.cos (phi i j)) (N - 1)
  have := a1 (ev - 2) (by omega) j
  rw [show ev - 2 + 1 = ev - 1 by omega] at this
  exact this

end
end Verif.Props
