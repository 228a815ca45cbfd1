import Verif.Props.Traj

/-!
# C42: polarised fields
-/

namespace Verif.Props
open Verif.Traj Verif.Spec

/-- real part of a field -/
def reV (v : C3) : V3 := ⟨v.x.re, v.y.re, v.z.re⟩
/-- imaginary part of a field -/
def imV (v : C3) : V3 := ⟨v.x.im, v.y.im, v.z.im⟩

theorem normSq_parts (v : C3) : v.normSq = (reV v).normSq + (imV v).normSq := by
  simp only [C3.normSq, Complex.normSq_apply, V3.normSq, V3.dot, reV, imV]; ring

theorem re_turnC (st ct sp cp : ℝ) (v : C3) : reV (turnC st ct sp cp v) = turn st ct sp cp (reV v) := by
  simp [reV, turnC, turn]

theorem im_turnC (st ct sp cp : ℝ) (v : C3) : imV (turnC st ct sp cp v) = turn st ct sp cp (imV v) := by
  simp [imV, turnC, turn]

/-- successive rotations by the angles of events `0..i-1` -/
noncomputable def turns (st ct sp cp : ℕ → ℝ) : ℕ → V3 → V3
  | 0, v => v
  | i + 1, v => turn (st i) (ct i) (sp i) (cp i) (turns st ct sp cp i v)

/-- the same on complex vectors -/
noncomputable def turnsC (st ct sp cp : ℕ → ℝ) : ℕ → C3 → C3
  | 0, v => v
  | i + 1, v => turnC (st i) (ct i) (sp i) (cp i) (turnsC st ct sp cp i v)

theorem re_turnsC (st ct sp cp : ℕ → ℝ) (i : ℕ) (v : C3) : reV (turnsC st ct sp cp i v) = turns st ct sp cp i (reV v) := by
  induction i with
  | zero => rfl
  | succ i ih => rw [turnsC, re_turnC, ih, turns]

theorem im_turnsC (st ct sp cp : ℕ → ℝ) (i : ℕ) (v : C3) : imV (turnsC st ct sp cp i v) = turns st ct sp cp i (imV v) := by
  induction i with
  | zero => rfl
  | succ i ih => rw [turnsC, im_turnC, ih, turns]

/-- consistent sines and cosines of one trajectory -/
def Consistent1 (st ct sp cp : ℕ → ℝ) : Prop := ∀ n, st n ^ 2 + ct n ^ 2 = 1 ∧ sp n ^ 2 + cp n ^ 2 = 1

theorem turns_dot {st ct sp cp : ℕ → ℝ} (h : Consistent1 st ct sp cp) (i : ℕ) (a b : V3) :
    V3.dot (turns st ct sp cp i a) (turns st ct sp cp i b) = V3.dot a b := by
  induction i with
  | zero => rfl
  | succ i ih => rw [turns, turns, turn_dot _ _ _ _ (h i).1 (h i).2, ih]

theorem rotate_loop (En : ℕ → C3) (st ct sp cp : ℕ → ℝ) (q m : ℕ) :
    (List.range' 2 q).foldl (rotateBody st ct sp cp) En m = turnsC st ct sp cp (min (m - 1) q) (En m) := by
  induction q with
  | zero => simp [turnsC]
  | succ q ih =>
    rw [List.range'_concat, List.foldl_append]
    simp only [List.foldl_cons, List.foldl_nil, one_mul]
    rw [rotateBody, ih]
    split
    · rename_i h
      rw [show min (m - 1) q = q by omega, show min (m - 1) (q + 1) = q + 1 by omega, turnsC, show 2 + q - 2 = q by omega]
    · rename_i h
      rw [show min (m - 1) (q + 1) = min (m - 1) q by omega]

/-- the field of row `m` before rotation, phase and normalisation -/
theorem calcFields_row (nev : ℕ) (En : ℕ → C3) (S1 S2 S3 S4 : ℕ → ℂ) (st ct sp cp : ℕ → ℝ) (k : ℝ) (step : ℕ → ℝ) (m : ℕ) :
    calcFields nev En S1 S2 S3 S4 st ct sp cp k step m = normalizeC (fieldsPhase (fun m =>
      turnsC st ct sp cp (min (m - 1) (nev - 1)) (fieldsLocal nev En S1 S2 S3 S4 m)) k step m) := by
  rw [calcFields]
  congr 2
  funext m
  exact rotate_loop _ _ _ _ _ _ _

theorem norm_stepPhase (k : ℝ) (step : ℕ → ℝ) (i : ℕ) : Complex.normSq (stepPhase k step i) = 1 := by
  rw [Complex.normSq_eq_norm_sq, stepPhase, mul_comm, Complex.norm_exp_ofReal_mul_I]; norm_num

theorem normSq_fieldsPhase (En : ℕ → C3) (k : ℝ) (step : ℕ → ℝ) (m : ℕ) : (fieldsPhase En k step m).normSq = (En m).normSq := by
  cases m with
  | zero => rfl
  | succ m => simp only [fieldsPhase, C3.normSq, Complex.normSq_mul, norm_stepPhase, mul_one]

theorem C3_normSq_nonneg (v : C3) : 0 ≤ v.normSq :=
  add_nonneg (add_nonneg (Complex.normSq_nonneg _) (Complex.normSq_nonneg _)) (Complex.normSq_nonneg _)

theorem normSq_normalizeC (v : C3) : (v.normSq ≠ 0 → (normalizeC v).normSq = 1) ∧ (v.normSq = 0 → normalizeC v = v) := by
  constructor
  · intro h
    have hp : 0 < v.normSq := lt_of_le_of_ne (C3_normSq_nonneg v) (Ne.symm h)
    have hs : Real.sqrt v.normSq ≠ 0 := (Real.sqrt_pos.mpr hp).ne'
    simp only [normalizeC, if_neg hs]
    simp only [C3.normSq, Complex.normSq_div, Complex.normSq_ofReal]
    rw [← add_div, ← add_div]
    rw [show (√(Complex.normSq v.x + Complex.normSq v.y + Complex.normSq v.z) * √(Complex.normSq v.x + Complex.normSq v.y +
      Complex.normSq v.z)) = Complex.normSq v.x + Complex.normSq v.y + Complex.normSq v.z from Real.mul_self_sqrt hp.le]
    exact div_self h
  · intro h
    simp only [normalizeC, h, Real.sqrt_zero, if_true]
    simp

theorem turnsC_normSq {st ct sp cp : ℕ → ℝ} (h : Consistent1 st ct sp cp) (i : ℕ) (v : C3) :
    (turnsC st ct sp cp i v).normSq = v.normSq := by
  rw [normSq_parts, normSq_parts v, re_turnsC, im_turnsC, V3.normSq, V3.normSq, turns_dot h, turns_dot h]; rfl

/-- C42.  For every scattering history, the field of every event has norm 1 after `calc_fields`, unless the scattered local
field of that event is exactly zero, in which case it stays zero (never NaN). -/
theorem C42_fields_unit (nev : ℕ) (En : ℕ → C3) (S1 S2 S3 S4 : ℕ → ℂ) (st ct sp cp : ℕ → ℝ) (k : ℝ) (step : ℕ → ℝ)
    (hc : Consistent1 st ct sp cp) (m : ℕ) :
    ((fieldsLocal nev En S1 S2 S3 S4 m).normSq ≠ 0 → (calcFields nev En S1 S2 S3 S4 st ct sp cp k step m).normSq = 1) ∧
    ((fieldsLocal nev En S1 S2 S3 S4 m).normSq = 0 → (calcFields nev En S1 S2 S3 S4 st ct sp cp k step m).normSq = 0) := by
  rw [calcFields_row]
  constructor
  · intro h
    apply (normSq_normalizeC _).1
    rw [normSq_fieldsPhase, turnsC_normSq hc]; exact h
  · intro h
    rw [(normSq_normalizeC _).2] <;> rw [normSq_fieldsPhase, turnsC_normSq hc] <;> exact h

/-- real vector dotted with a complex one -/
noncomputable def dotC (E : C3) (k : V3) : ℂ := E.x * k.x + E.y * k.y + E.z * k.z

theorem dotC_parts (E : C3) (k : V3) : dotC E k = (V3.dot (reV E) k : ℝ) + (V3.dot (imV E) k : ℝ) * Complex.I := by
  apply Complex.ext <;> simp [dotC, V3.dot, reV, imV]

theorem dotC_normalizeC {E : C3} {k : V3} (h : dotC E k = 0) : dotC (normalizeC E) k = 0 := by
  have : dotC (normalizeC E) k = dotC E k / ((if Real.sqrt E.normSq = 0 then 1 else Real.sqrt E.normSq : ℝ) : ℂ) := by
    simp only [dotC, normalizeC]; ring
  rw [this, h, zero_div]

/-- C42.  Under normal incidence (initial direction +z, initial fields without z component) the field of each event is
perpendicular to the direction of propagation that `scatter` computes from the same angles for that event.  (Row `n+1` of
the fields belongs to row `n` of the directions.) -/
theorem C42_fields_transverse {nt : ℕ} (nev : ℕ) (En : ℕ → C3) (S1 S2 S3 S4 : ℕ → ℂ) (st ct sp cp : ℕ → Fin nt → ℝ) (k : ℝ)
    (step : ℕ → ℝ) (hc : Consistent st ct sp cp) (kn : ℕ → Fin nt → V3) (j : Fin nt) (hz : kn 0 j = ⟨0, 0, 1⟩)
    (hE : ∀ m, (En m).z = 0) (n : ℕ) (hn : n < nev) :
    dotC (calcFields nev En S1 S2 S3 S4 (fun i => st i j) (fun i => ct i j) (fun i => sp i j) (fun i => cp i j) k step (n + 1))
      (scatter nev kn st ct sp cp n j) = 0 := by
  have hc1 : Consistent1 (fun i => st i j) (fun i => ct i j) (fun i => sp i j) (fun i => cp i j) := fun n => hc n j
  obtain ⟨g0, g1, -⟩ := scatter_loop kn st ct sp cp (nev - 1)
  have hk : ∀ n, n < nev → scatter nev kn st ct sp cp n j =
      turns (fun i => st i j) (fun i => ct i j) (fun i => sp i j) (fun i => cp i j) n ⟨0, 0, 1⟩ := by
    intro n
    induction n with
    | zero => intro _; exact (congrFun g0 j).trans hz
    | succ n ih =>
      intro h
      have e : scatter nev kn st ct sp cp (n + 1) j = _ := g1 n (by omega) j
      rw [e, turns, ← ih (by omega)]; rfl
  rw [calcFields_row, hk n hn]
  apply dotC_normalizeC
  have hmin : min (n + 1 - 1) (nev - 1) = n := by omega
  simp only [fieldsPhase, hmin]
  have hz2 : (fieldsLocal nev En S1 S2 S3 S4 (n + 1)).z = 0 := by
    cases n with
    | zero => exact hE 1
    | succ n =>
      simp only [fieldsLocal]
      split <;> exact hE _
  set F := fieldsLocal nev En S1 S2 S3 S4 (n + 1)
  set T := turnsC (fun i => st i j) (fun i => ct i j) (fun i => sp i j) (fun i => cp i j) n F with hT
  have h0 : dotC T (turns (fun i => st i j) (fun i => ct i j) (fun i => sp i j) (fun i => cp i j) n ⟨0, 0, 1⟩) = 0 := by
    rw [dotC_parts, hT, re_turnsC, im_turnsC, turns_dot hc1, turns_dot hc1]
    simp [V3.dot, reV, imV, hz2]
  have e : ∀ (c : ℂ) (d : V3), dotC ⟨T.x * c, T.y * c, T.z * c⟩ d = dotC T d * c := by intro c d; simp only [dotC]; ring
  rw [e, h0, zero_mul]

/-- multiply a field vector by a complex number -/
def C3.smul (c : ℂ) (v : C3) : C3 := ⟨c * v.x, c * v.y, c * v.z⟩

theorem stepPhase_eq (k : ℝ) (step : ℕ → ℝ) (i : ℕ) :
    stepPhase k step i = Complex.exp (Complex.I * (k ^ 2 * ∑ n ∈ Finset.range (i + 1), step n : ℝ)) := by
  rw [stepPhase, cumsum_eq, ← mul_assoc, abs_mul_abs_self, sq]

theorem normalizeC_phase {c : ℂ} (hc : Complex.normSq c = 1) (v : C3) :
    normalizeC ⟨v.x * c, v.y * c, v.z * c⟩ = C3.smul c (normalizeC v) := by
  have : (C3.mk (v.x * c) (v.y * c) (v.z * c)).normSq = v.normSq := by
    simp only [C3.normSq, Complex.normSq_mul, hc, mul_one]
  simp only [normalizeC, this, C3.smul]
  ext <;> ring

/-- C42, the phase that the code computes: travelling the path length `L` up to event `i` multiplies the field of that event
by `exp(i k² L)` (compared with the field computed for steps of length zero). -/
theorem C42_phase_factor_partial (nev : ℕ) (En : ℕ → C3) (S1 S2 S3 S4 : ℕ → ℂ) (st ct sp cp : ℕ → ℝ) (k : ℝ) (step : ℕ → ℝ)
    (i : ℕ) :
    calcFields nev En S1 S2 S3 S4 st ct sp cp k step (i + 1) =
      C3.smul (Complex.exp (Complex.I * (k ^ 2 * ∑ n ∈ Finset.range (i + 1), step n : ℝ)))
        (calcFields nev En S1 S2 S3 S4 st ct sp cp k (fun _ => 0) (i + 1)) := by
  have h0 : stepPhase k (fun _ => 0) i = 1 := by rw [stepPhase_eq]; simp
  have e := normalizeC_phase (norm_stepPhase k step i)
  simp only [calcFields, fieldsPhase]
  rw [e, ← stepPhase_eq, h0]
  simp only [mul_one]

/-- C42 is false of the code as far as the phase is concerned: the phase over a path of length `L` is `k² L`, not `k L`.
With `k = 2` and `L = pi/2` the field should be reversed but is the same as without travelling. -/
theorem C42_phase_refuted :
    ∃ (k : ℝ) (step : ℕ → ℝ), Complex.exp (Complex.I * (k * ∑ n ∈ Finset.range 1, step n : ℝ)) = -1 ∧
      ∀ nev En S1 S2 S3 S4 st ct sp cp, calcFields nev En S1 S2 S3 S4 st ct sp cp k step 1 =
        calcFields nev En S1 S2 S3 S4 st ct sp cp k (fun _ => 0) 1 := by
  refine ⟨2, fun _ => Real.pi / 2, ?_, ?_⟩
  · simp only [Finset.sum_range_one]
    rw [show (2 * (Real.pi / 2) : ℝ) = Real.pi by ring, mul_comm, Complex.exp_pi_mul_I]
  · intro nev En S1 S2 S3 S4 st ct sp cp
    rw [C42_phase_factor_partial nev En S1 S2 S3 S4 st ct sp cp 2 _ 0]
    simp only [zero_add, Finset.sum_range_one]
    rw [show ((2 : ℝ) ^ 2 * (Real.pi / 2) : ℝ) = 2 * Real.pi by ring, mul_comm]
    push_cast
    rw [Complex.exp_two_pi_mul_I]
    simp [C3.smul]

/-- Specification: the amplitude scattering matrix applied to the incoming local field. -/
def scatteredField (S1 S2 S3 S4 : ℂ) (E : ℂ × ℂ) : ℂ × ℂ := (S2 * E.1 + S3 * E.2, S4 * E.1 + S1 * E.2)

/-- C42.  The local field is multiplied by the amplitude scattering matrix when its off-diagonal element `S4` vanishes ... -/
theorem C42_scattering_matrix_partial (S1 S2 S3 : ℂ) (E : ℂ × ℂ) : mieStep S1 S2 S3 0 E = scatteredField S1 S2 S3 0 E := by
  simp [mieStep, scatteredField]

/-- ... but not in general: the already updated x component is used for the new y component. -/
theorem C42_scattering_matrix_refuted :
    ∃ (S1 S2 S3 S4 : ℂ) (E : ℂ × ℂ), mieStep S1 S2 S3 S4 E ≠ scatteredField S1 S2 S3 S4 E := by
  refine ⟨1, 2, 0, 1, (1, 0), ?_⟩
  simp [mieStep, scatteredField]

/-- Non-vacuity of C42: an x-polarised photon scattered once by a matrix with equal diagonal elements has a non-zero local
field. -/
example : (fieldsLocal 2 (fun _ => ⟨1, 0, 0⟩) (fun _ => 1) (fun _ => 1) (fun _ => 0) (fun _ => 0) 2).normSq ≠ 0 := by
  simp [fieldsLocal, localField, mieStep, C3.normSq]

end Verif.Props
