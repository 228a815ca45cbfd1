import Verif.Model.Deprecated
import Verif.Props.Tir

/-!
# C119: coherent totals of totally internally reflected light
-/

namespace Verif.Props

open Verif.Deprecated Verif.Events
open Verif (XF PyErr)

variable {nt nev : ℕ}

/-- C119, refuted: `calc_tir(..., phase=True)` returns for no `Trajectory`.  When the Fresnel fractions can be computed the error is an
AttributeError, because a `Trajectory` has no `polarization`. -/
theorem C119_calc_tir_phase_refuted (pol ph : Fin 3 → ℕ → Fin nt → ℝ) (tir : Fin nev → Fin nt → Bool) (ri ti : Fin nt → ℕ)
    (w : (Fin nt → ℕ) → Except PyErr (Fin nt → ℝ)) :
    (∃ e, calcTirPhase trajectoryNames pol ph tir ri ti w = .error e) ∧
    ((∀ idx, ∃ v, w idx = .ok v) → calcTirPhase trajectoryNames pol ph tir ri ti w = .error .attributeError) := by
  have hp : getAttr trajectoryNames "polarization" = .error .attributeError := by
    unfold getAttr; rw [if_neg (by decide)]
  constructor
  · unfold calcTirPhase
    simp only [hp]
    cases w (fun j => if tirIndices tir ri ti j ≠ 0 then ri j else 0) with
    | error e => exact ⟨e, rfl⟩
    | ok v =>
      simp only [bind, Except.bind]
      cases w (fun j => if (if tirIndices tir ri ti j ≠ 2 then 0 else tirIndices tir ri ti j) = 2 then ri j else 0) with
      | error e => exact ⟨e, rfl⟩
      | ok v => exact ⟨_, rfl⟩
  · intro hw
    unfold calcTirPhase
    simp only [hp]
    obtain ⟨v, hv⟩ := hw (fun j => if tirIndices tir ri ti j ≠ 0 then ri j else 0)
    obtain ⟨v', hv'⟩ := hw (fun j => if (if tirIndices tir ri ti j ≠ 2 then 0 else tirIndices tir ri ti j) = 2 then ri j else 0)
    simp only [hv, hv', bind, Except.bind]

/-- C119, refuted: `calc_tir_phase_event_input` raises AttributeError for every input: `structcol.detector` has no
`calc_traj_time`. -/
theorem C119_phase_event_input_refuted (trajTime phaseTime : Except PyErr (Fin nt → ℝ)) (tir : Fin nev → Fin nt → Bool)
    (ri : Fin nt → ℕ) : calcTirPhaseEventInput detectorNames trajTime phaseTime tir ri = .error .attributeError := by
  unfold calcTirPhaseEventInput
  have hp : getAttr detectorNames "calc_traj_time" = .error .attributeError := by
    unfold getAttr; rw [if_neg (by decide)]
  rw [hp]
  rfl

/-- C119, what the code would compute for an object that has a polarisation and a phase: the three other arrays are zero, and the entry
of event `ev` in the reflected one is real and nonnegative; when exactly one totally internally reflected trajectory leaves at `ev`,
it is that trajectory's weight times its squared polarisation vector, whatever its phase. -/
theorem C119_phase_intensity_partial (names : List String) (hn : "polarization" ∈ names ∧ "phase" ∈ names)
    (pol ph : Fin 3 → ℕ → Fin nt → ℝ) (tir : Fin nev → Fin nt → Bool) (ri ti : Fin nt → ℕ) (wt : (Fin nt → ℕ) → Fin nt → ℝ)
    (hw : ∀ idx j, 0 ≤ wt idx j) :
    ∃ allRefl : ℕ → ℝ, ∃ idx : Fin nt → ℕ,
      calcTirPhase names pol ph tir ri ti (fun i => .ok (wt i)) = .ok (fun _ => 0, fun ev => (allRefl ev : ℂ), fun _ => 0, fun _ => 0, idx) ∧
      (∀ ev, 0 ≤ allRefl ev) ∧
      (∀ ev j, 1 ≤ ev → ev < nev → (∀ i, (if tirIndices tir ri ti i ≠ 0 then ri i else 0) = ev ↔ i = j) →
        allRefl ev = wt (fun i => if tirIndices tir ri ti i ≠ 0 then ri i else 0) j *
          (pol 0 ev j ^ 2 + pol 1 ev j ^ 2 + pol 2 ev j ^ 2)) := by
  set idxRefl : Fin nt → ℕ := fun i => if tirIndices tir ri ti i ≠ 0 then ri i else 0 with hidx
  let tot : Fin 3 → ℕ → ℂ := fun c ev => if 1 ≤ ev ∧ ev ≤ nev - 1 then
    sumAt (fun j => (Real.sqrt (wt idxRefl j) : ℂ) * ((pol c ev j : ℂ) * Complex.exp (ph c ev j * Complex.I))) idxRefl ev else 0
  refine ⟨fun ev => Complex.normSq (tot 0 ev) + Complex.normSq (tot 1 ev) + Complex.normSq (tot 2 ev),
    fun j => if tirIndices tir ri ti j ≠ 2 then 0 else tirIndices tir ri ti j, ?_, ?_, ?_⟩
  · have h1 : getAttr names "polarization" = .ok () := by unfold getAttr; rw [if_pos hn.1]
    have h2 : getAttr names "phase" = .ok () := by unfold getAttr; rw [if_pos hn.2]
    unfold calcTirPhase
    simp only [h1, h2, bind, Except.bind, pure, Except.pure]
    congr 2
    congr 1
    funext ev
    have key : ∀ c : Fin 3, (List.range' 1 (nev - 1)).foldl (fun s ev => addAt s ev
        (sumAt (fun j => (Real.sqrt (wt idxRefl j) : ℂ) * ((pol c ev j : ℂ) * Complex.exp (ph c ev j * Complex.I))) idxRefl ev))
        (fun _ => 0) ev = tot c ev := fun c => by
      rw [foldl_addAt, zero_add]
    rw [key 0, key 1, key 2]
    push_cast
    simp only [Complex.normSq_eq_conj_mul_self]
  · intro ev
    have := Complex.normSq_nonneg (tot 0 ev)
    have := Complex.normSq_nonneg (tot 1 ev)
    have := Complex.normSq_nonneg (tot 2 ev)
    positivity
  · intro ev j h1 h2 huniq
    have hfilter : (Finset.univ.filter fun i => idxRefl i = ev) = {j} := by
      ext i
      simp only [Finset.mem_filter, Finset.mem_univ, true_and, Finset.mem_singleton]
      exact huniq i
    have hc : ∀ c : Fin 3, Complex.normSq (tot c ev) = wt idxRefl j * pol c ev j ^ 2 := by
      intro c
      simp only [tot]
      rw [if_pos ⟨h1, by omega⟩]
      unfold sumAt
      rw [hfilter, Finset.sum_singleton, Complex.normSq_mul, Complex.normSq_mul, Complex.normSq_ofReal, Complex.normSq_ofReal,
        Real.mul_self_sqrt (hw _ _), Complex.normSq_eq_norm_sq, Complex.norm_exp_ofReal_mul_I]
      ring
    dsimp only
    rw [hc, hc, hc]
    ring

/-- Non-vacuity of C119: one trajectory, totally internally reflected at event 1 and reflected at event 2. -/
example : ∀ i : Fin 1, (if tirIndices (nev := 3) (fun e _ => e = 0) (fun _ => 2) (fun _ => 0) i ≠ 0 then (fun _ : Fin 1 => 2) i else 0) = 2 ↔ i = 0 := by
  intro i
  fin_cases i
  have : Exits.firstEvent (nev := 3) (nt := 1) (fun e _ => decide (e = 0)) 0 = 1 := by
    simp [Exits.firstEvent]
    decide
  simp [tirIndices, this]

end Verif.Props
