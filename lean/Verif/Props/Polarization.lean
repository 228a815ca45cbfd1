import Verif.Model.Polarization
import Verif.Props.Fields
import Mathlib.Analysis.Complex.Trigonometric
import Mathlib.Analysis.SpecialFunctions.Trigonometric.Basic
import Mathlib.Algebra.Order.Chebyshev
import Mathlib.Algebra.BigOperators.Field

/-!
# C61–C63: intensities of coherently added fields, polarised intensities, times of flight
-/

namespace Verif.Props
open Verif.Polar
open Verif.Traj (C3)

variable {nt : ℕ}

theorem conjMul_re (e : ℂ) : (conjMul e).re = Complex.normSq e ∧ conjMul e = ((Complex.normSq e : ℝ) : ℂ) := by
  have : conjMul e = ((Complex.normSq e : ℝ) : ℂ) := by
    unfold conjMul; rw [Complex.normSq_eq_conj_mul_self]
  exact ⟨by rw [this, Complex.ofReal_re], this⟩

/-- the light of one trajectory that the incoherent sum counts: its reflectance if it has a reflection event and a normalised field -/
theorem reflField_normSq (fields : ℕ → Fin nt → C3) (ri : Fin nt → ℕ) (refl : Fin nt → ℝ) (h0 : ∀ j, 0 ≤ refl j) (j : Fin nt) :
    (reflField fields ri refl j).normSq = if 0 < ri j then refl j * nt * (fields (ri j) j).normSq else 0 := by
  unfold reflField C3.normSq
  simp only
  split_ifs
  · simp only [Complex.normSq_mul, Complex.normSq_ofReal]
    have : Real.sqrt (refl j * nt) * Real.sqrt (refl j * nt) = refl j * nt := Real.mul_self_sqrt (mul_nonneg (h0 j) (Nat.cast_nonneg nt))
    rw [this]; ring
  · simp

theorem phase_fields_eq (fields : ℕ → Fin nt → C3) (ri : Fin nt → ℕ) (refl : Fin nt → ℝ) :
    (calcReflPhaseFields fields ri refl).2.1 = (totField fields ri refl).normSq / nt ∧
    (calcReflPhaseFields fields ri refl).2.2 = (∑ j, (reflField fields ri refl j).normSq) / nt := by
  have key : ∀ (r : ℝ), (((r : ℝ) : ℂ) / (nt : ℂ)).re = r / nt := by
    intro r
    rw [show ((nt : ℂ)) = ((nt : ℝ) : ℂ) by simp, ← Complex.ofReal_div, Complex.ofReal_re]
  constructor
  · simp only [calcReflPhaseFields, (conjMul_re _).2, ← Complex.ofReal_add, key]
    rfl
  · simp only [calcReflPhaseFields, (conjMul_re _).2, ← Complex.ofReal_add, ← Complex.ofReal_sum, key]
    rfl

/-- C61.  For every batch of fields both intensities are non-negative, and the coherent one is at most the number of reflected
trajectories times the incoherent one. -/
theorem C61_coherent_bound (fields : ℕ → Fin nt → C3) (ri : Fin nt → ℕ) (refl : Fin nt → ℝ) :
    0 ≤ (calcReflPhaseFields fields ri refl).2.1 ∧ 0 ≤ (calcReflPhaseFields fields ri refl).2.2 ∧
    (calcReflPhaseFields fields ri refl).2.1 ≤
      ((Finset.univ.filter fun j => 0 < ri j).card : ℝ) * (calcReflPhaseFields fields ri refl).2.2 := by
  obtain ⟨e1, e2⟩ := phase_fields_eq fields ri refl
  have nn : ∀ v : C3, 0 ≤ v.normSq := fun v => by
    unfold C3.normSq; have := Complex.normSq_nonneg v.x; have := Complex.normSq_nonneg v.y; have := Complex.normSq_nonneg v.z; linarith
  have hsum : 0 ≤ ∑ j, (reflField fields ri refl j).normSq := Finset.sum_nonneg fun j _ => nn _
  refine ⟨by rw [e1]; exact div_nonneg (nn _) (Nat.cast_nonneg _), by rw [e2]; exact div_nonneg hsum (Nat.cast_nonneg _), ?_⟩
  rw [e1, e2, ← mul_div_assoc]
  refine div_le_div_of_nonneg_right ?_ (Nat.cast_nonneg _)
  -- Cauchy-Schwarz for each component
  have cs : ∀ g : Fin nt → ℂ, (∀ j, ¬ 0 < ri j → g j = 0) →
      Complex.normSq (∑ j, g j) ≤ ((Finset.univ.filter fun j => 0 < ri j).card : ℝ) * ∑ j, Complex.normSq (g j) := by
    intro g hg
    have h1 : ∑ j, g j = ∑ j ∈ Finset.univ.filter (fun j => 0 < ri j), g j :=
      (Finset.sum_filter_of_ne fun j _ hj => by by_contra hc; exact hj (hg j hc)).symm
    rw [Complex.normSq_eq_norm_sq, h1]
    calc ‖∑ j ∈ Finset.univ.filter (fun j => 0 < ri j), g j‖ ^ 2
        ≤ (∑ j ∈ Finset.univ.filter (fun j => 0 < ri j), ‖g j‖) ^ 2 :=
          pow_le_pow_left₀ (norm_nonneg _) (norm_sum_le _ _) 2
      _ ≤ _ * ∑ j ∈ Finset.univ.filter (fun j => 0 < ri j), ‖g j‖ ^ 2 := sq_sum_le_card_mul_sum_sq
      _ ≤ _ * ∑ j, Complex.normSq (g j) := by
          refine mul_le_mul_of_nonneg_left ?_ (Nat.cast_nonneg _)
          simp only [Complex.normSq_eq_norm_sq]
          exact Finset.sum_le_sum_of_subset_of_nonneg (Finset.filter_subset _ _) fun j _ _ => sq_nonneg _
  have hx := cs (fun j => (reflField fields ri refl j).x) (fun j hj => by simp [reflField, hj])
  have hy := cs (fun j => (reflField fields ri refl j).y) (fun j hj => by simp [reflField, hj])
  have hz := cs (fun j => (reflField fields ri refl j).z) (fun j hj => by simp [reflField, hj])
  have : ∑ j, (reflField fields ri refl j).normSq = ∑ j, Complex.normSq (reflField fields ri refl j).x +
      ∑ j, Complex.normSq (reflField fields ri refl j).y + ∑ j, Complex.normSq (reflField fields ri refl j).z := by
    simp only [C3.normSq, Finset.sum_add_distrib]
  rw [this, mul_add, mul_add]
  have : (totField fields ri refl).normSq = Complex.normSq (∑ j, (reflField fields ri refl j).x) +
    Complex.normSq (∑ j, (reflField fields ri refl j).y) + Complex.normSq (∑ j, (reflField fields ri refl j).z) := rfl
  linarith

/-- C61.  Without phase the intensity is the sum over the trajectories with a reflection event of their reflectance times the squared
magnitude of their field; if the fields are normalised, as `calc_fields` leaves them, it is the sum of these reflectances: what is
missing from the total reflectance is the share given to trajectories without a reflection event. -/
theorem C61_incoherent_sum (fields : ℕ → Fin nt → C3) (ri : Fin nt → ℕ) (refl : Fin nt → ℝ) (h0 : ∀ j, 0 ≤ refl j) (hn : 0 < nt) :
    (calcReflPhaseFields fields ri refl).2.2 = ∑ j, (if 0 < ri j then refl j * (fields (ri j) j).normSq else 0) ∧
    ((∀ j, 0 < ri j → (fields (ri j) j).normSq = 1) →
      (calcReflPhaseFields fields ri refl).2.2 = ∑ j ∈ Finset.univ.filter (fun j => 0 < ri j), refl j ∧
      (calcReflPhaseFields fields ri refl).2.2 = ∑ j, refl j - ∑ j ∈ Finset.univ.filter (fun j => ri j = 0), refl j) := by
  obtain ⟨_, e2⟩ := phase_fields_eq fields ri refl
  have hn' : (nt : ℝ) ≠ 0 := by exact_mod_cast hn.ne'
  have e : (calcReflPhaseFields fields ri refl).2.2 = ∑ j, (if 0 < ri j then refl j * (fields (ri j) j).normSq else 0) := by
    rw [e2, Finset.sum_div]
    refine Finset.sum_congr rfl fun j _ => ?_
    rw [reflField_normSq fields ri refl h0 j]
    split_ifs
    · field_simp
    · simp
  refine ⟨e, fun hu => ?_⟩
  have e' : (calcReflPhaseFields fields ri refl).2.2 = ∑ j ∈ Finset.univ.filter (fun j => 0 < ri j), refl j := by
    rw [e, Finset.sum_filter]
    refine Finset.sum_congr rfl fun j _ => ?_
    split_ifs with h
    · rw [hu j h, mul_one]
    · rfl
  refine ⟨e', ?_⟩
  have := Finset.sum_filter_add_sum_filter_not Finset.univ (fun j => 0 < ri j) refl
  simp only [Nat.pos_iff_ne_zero, not_not] at this e'
  rw [e', ← this]; ring

/-- C61.  If at most one trajectory is reflected, or all fields but one vanish, there is nothing to interfere with: both intensities agree. A
common phase of all fields changes neither. -/
theorem C61_phase (fields : ℕ → Fin nt → C3) (ri : Fin nt → ℕ) (refl : Fin nt → ℝ) :
    (∀ j0, (∀ j, j ≠ j0 → ri j = 0) → (calcReflPhaseFields fields ri refl).2.1 = (calcReflPhaseFields fields ri refl).2.2) ∧
    ∀ u : ℂ, Complex.normSq u = 1 →
      (calcReflPhaseFields (fun e j => ⟨u * (fields e j).x, u * (fields e j).y, u * (fields e j).z⟩) ri refl).2 =
        (calcReflPhaseFields fields ri refl).2 := by
  constructor
  · intro j0 hj
    obtain ⟨e1, e2⟩ := phase_fields_eq fields ri refl
    have hz : ∀ j, j ≠ j0 → reflField fields ri refl j = ⟨0, 0, 0⟩ := fun j h => by simp [reflField, hj j h]
    rw [e1, e2]
    congr 1
    have h1 : ∑ j, (reflField fields ri refl j).normSq = (reflField fields ri refl j0).normSq :=
      Finset.sum_eq_single j0 (fun j _ h => by rw [hz j h]; simp [C3.normSq]) (fun h => absurd (Finset.mem_univ j0) h)
    have hx : ∑ j, (reflField fields ri refl j).x = (reflField fields ri refl j0).x :=
      Finset.sum_eq_single j0 (fun j _ h => by rw [hz j h]) (fun h => absurd (Finset.mem_univ j0) h)
    have hy : ∑ j, (reflField fields ri refl j).y = (reflField fields ri refl j0).y :=
      Finset.sum_eq_single j0 (fun j _ h => by rw [hz j h]) (fun h => absurd (Finset.mem_univ j0) h)
    have hzz : ∑ j, (reflField fields ri refl j).z = (reflField fields ri refl j0).z :=
      Finset.sum_eq_single j0 (fun j _ h => by rw [hz j h]) (fun h => absurd (Finset.mem_univ j0) h)
    rw [h1]
    simp only [totField, C3.normSq, hx, hy, hzz]
  · intro u hu
    obtain ⟨e1, e2⟩ := phase_fields_eq fields ri refl
    obtain ⟨e3, e4⟩ := phase_fields_eq (fun e j => (⟨u * (fields e j).x, u * (fields e j).y, u * (fields e j).z⟩ : C3)) ri refl
    have hr : ∀ j, reflField (fun e j => (⟨u * (fields e j).x, u * (fields e j).y, u * (fields e j).z⟩ : C3)) ri refl j =
        ⟨u * (reflField fields ri refl j).x, u * (reflField fields ri refl j).y, u * (reflField fields ri refl j).z⟩ := by
      intro j
      unfold reflField
      simp only
      split_ifs
      · simp only [C3.mk.injEq]; refine ⟨by ring, by ring, by ring⟩
      · simp
    refine Prod.ext ?_ ?_
    · rw [e3, e1]
      congr 1
      simp only [totField, C3.normSq, hr, ← Finset.mul_sum, Complex.normSq_mul, hu, one_mul]
    · rw [e4, e2]
      congr 1
      refine Finset.sum_congr rfl fun j _ => ?_
      simp only [C3.normSq, hr, Complex.normSq_mul, hu, one_mul]

/-- Non-vacuity of C61: three trajectories, two of them reflected, all with the normalised field (1, 0, 0). -/
example : ∀ j : Fin 3, 0 < (![1, 2, 0] : Fin 3 → ℕ) j → ((fun _ _ => ⟨1, 0, 0⟩ : ℕ → Fin 3 → C3) (![1, 2, 0] j) j).normSq = 1 := by
  intro j _; simp [C3.normSq]

/-! ### C62 -/

/-- C62 (up to the normalisation).  The three polarised intensities are non-negative and add up to the number of trajectories times the
coherent reflectance returned with them, for every detector angle. -/
theorem C62_co_cross_partial (fields : ℕ → Fin nt → C3) (ri : Fin nt → ℕ) (refl : Fin nt → ℝ) (det : ℝ) (hn : 0 < nt) :
    let o := calcReflCoCrossFields fields ri refl det
    0 ≤ o.co ∧ 0 ≤ o.cr ∧ 0 ≤ o.perp ∧ o.co + o.cr + o.perp = nt * o.refl_field ∧
    o.refl_field = (calcReflPhaseFields fields ri refl).2.1 ∧ o.refl_intensity = (calcReflPhaseFields fields ri refl).2.2 := by
  intro o
  have hn' : (nt : ℝ) ≠ 0 := by exact_mod_cast hn.ne'
  obtain ⟨e1, _⟩ := phase_fields_eq fields ri refl
  have hf : o.refl_field = (totField fields ri refl).normSq / nt := e1
  refine ⟨?_, ?_, ?_, ?_, rfl, rfl⟩
  · show 0 ≤ (conjMul _).re
    rw [(conjMul_re _).1]; exact Complex.normSq_nonneg _
  · show 0 ≤ (conjMul _).re
    rw [(conjMul_re _).1]; exact Complex.normSq_nonneg _
  · show 0 ≤ (conjMul _).re
    rw [(conjMul_re _).1]; exact Complex.normSq_nonneg _
  · rw [hf]
    show (conjMul _).re + (conjMul _).re + (conjMul _).re = _
    rw [(conjMul_re _).1, (conjMul_re _).1, (conjMul_re _).1, mul_div_cancel₀ _ hn']
    show Complex.normSq ((totField fields ri refl).x * (Real.cos det : ℝ) + (totField fields ri refl).z * (Real.sin det : ℝ)) +
      Complex.normSq (totField fields ri refl).y +
      Complex.normSq (-(totField fields ri refl).x * (Real.sin det : ℝ) + (totField fields ri refl).z * (Real.cos det : ℝ)) = _
    unfold C3.normSq
    have h := Real.sin_sq_add_cos_sq det
    simp only [Complex.normSq_apply, Complex.add_re, Complex.mul_re, Complex.add_im, Complex.mul_im, Complex.ofReal_re, Complex.ofReal_im,
      Complex.neg_re, Complex.neg_im, mul_zero, sub_zero, zero_add]
    generalize (totField fields ri refl).x.re = a
    generalize (totField fields ri refl).x.im = b
    generalize (totField fields ri refl).z.re = c
    generalize (totField fields ri refl).z.im = d
    linear_combination (a ^ 2 + b ^ 2 + c ^ 2 + d ^ 2) * h

/-- C62.  Light polarised along the detector's axes: for normal detection the co-polarised intensity is that of the x field, and a field
transverse to the detection direction (no component along it) has no longitudinal intensity. -/
theorem C62_transverse (fields : ℕ → Fin nt → C3) (ri : Fin nt → ℕ) (refl : Fin nt → ℝ) (det : ℝ) (ex : ℂ)
    (hx : (totField fields ri refl).x = ex * (Real.cos det : ℝ)) (hz : (totField fields ri refl).z = ex * (Real.sin det : ℝ)) :
    let o := calcReflCoCrossFields fields ri refl det
    o.perp = 0 ∧ o.co = Complex.normSq ex ∧ o.cr = Complex.normSq (totField fields ri refl).y := by
  intro o
  have h := Real.sin_sq_add_cos_sq det
  refine ⟨?_, ?_, ?_⟩
  · show (conjMul (-(totField fields ri refl).x * (Real.sin det : ℝ) + (totField fields ri refl).z * (Real.cos det : ℝ))).re = 0
    rw [(conjMul_re _).1, hx, hz, show -(ex * (Real.cos det : ℝ)) * (Real.sin det : ℝ) + ex * (Real.sin det : ℝ) * (Real.cos det : ℝ) = (0 : ℂ) by ring]
    simp
  · show (conjMul ((totField fields ri refl).x * (Real.cos det : ℝ) + (totField fields ri refl).z * (Real.sin det : ℝ))).re = _
    rw [(conjMul_re _).1, hx, hz]
    have : ex * (Real.cos det : ℝ) * (Real.cos det : ℝ) + ex * (Real.sin det : ℝ) * (Real.sin det : ℝ) = ex := by
      have h' : ((Real.sin det : ℝ) : ℂ) ^ 2 + ((Real.cos det : ℝ) : ℂ) ^ 2 = 1 := by exact_mod_cast h
      linear_combination ex * h'
    rw [this]
  · exact (conjMul_re _).1

/-- C62, refuted as stated: the polarised intensities are not normalised by the number of trajectories while the reflectance returned with
them is, so they add up to it only when nothing is reflected or there is a single trajectory. -/
theorem C62_co_cross_refuted (fields : ℕ → Fin nt → C3) (ri : Fin nt → ℕ) (refl : Fin nt → ℝ) (det : ℝ) (hn : 1 < nt) :
    let o := calcReflCoCrossFields fields ri refl det
    o.co + o.cr + o.perp = o.refl_field ↔ o.refl_field = 0 := by
  intro o
  have h := (C62_co_cross_partial fields ri refl det (by omega)).2.2.2.1
  have h' : o.co + o.cr + o.perp = nt * o.refl_field := h
  have hn' : (1 : ℝ) < nt := by exact_mod_cast hn
  rw [h']
  constructor
  · intro e
    have : ((nt : ℝ) - 1) * o.refl_field = 0 := by linarith
    rcases mul_eq_zero.mp this with h1 | h1
    · linarith
    · exact h1
  · intro e; rw [e, mul_zero]

/-! ### C63 -/

/-- C63.  For every history of non-negative steps: a trajectory without exit event takes no time; one that exits at event `e` after
travelling a positive distance takes the time light of speed `c / n` needs for the sum of its steps up to and including the exit event,
plus the dwell time in one particle; times are never negative. -/
theorem C63_traj_time (nsteps : ℕ) (step : ℕ → Fin nt → ℝ) (exits : Fin nt → ℕ) (c n dwell : ℝ) (hc : 0 < c) (hn : 0 < n) (hd : 0 ≤ dwell)
    (hstep : ∀ e j, 0 ≤ step e j) (j : Fin nt) :
    let time := (calcTrajTime nsteps step exits c n dwell).1 j
    0 ≤ time ∧ (exits j = 0 → time = 0) ∧
    (exits j ≤ nsteps → (∃ e < exits j, 0 < step e j) →
      time * (c / n) = (∑ e ∈ Finset.range (exits j), step e j) + dwell * (c / n)) ∧
    (calcTrajTime nsteps step exits c n dwell).2 j * (c / n) = ∑ e ∈ Finset.range (min (exits j) nsteps), step e j := by
  intro time
  have hv : 0 < c / n := by positivity
  have hp : 0 ≤ pathLength nsteps step exits j := Finset.sum_nonneg fun e _ => hstep e j
  refine ⟨?_, ?_, ?_, ?_⟩
  · show 0 ≤ if pathLength nsteps step exits j = 0 then 0 else _
    split_ifs
    · exact le_rfl
    · have := div_nonneg hp hv.le; linarith
  · intro h0
    show (if pathLength nsteps step exits j = 0 then 0 else _) = (0:ℝ)
    rw [if_pos (by simp [pathLength, h0])]
  · rintro hle ⟨e, he, hpos⟩
    have hpl : pathLength nsteps step exits j = ∑ e ∈ Finset.range (exits j), step e j := by
      unfold pathLength; rw [min_eq_left hle]
    have hne : pathLength nsteps step exits j ≠ 0 := by
      rw [hpl]
      exact (Finset.sum_pos' (fun e _ => hstep e j) ⟨e, Finset.mem_range.mpr he, hpos⟩).ne'
    show (if pathLength nsteps step exits j = 0 then 0 else pathLength nsteps step exits j / (c / n) + dwell) * (c / n) = _
    rw [if_neg hne, hpl]
    field_simp
  · show pathLength nsteps step exits j / (c / n) * (c / n) = _
    rw [div_mul_cancel₀ _ hv.ne']; rfl

/-- C63.  Leaving later never takes less time. -/
theorem C63_monotone (nsteps : ℕ) (step : ℕ → Fin nt → ℝ) (exits exits' : Fin nt → ℕ) (c n dwell : ℝ) (hc : 0 < c) (hn : 0 < n)
    (hd : 0 ≤ dwell) (hstep : ∀ e j, 0 ≤ step e j) (j : Fin nt) (hle : exits j ≤ exits' j) :
    (calcTrajTime nsteps step exits c n dwell).1 j ≤ (calcTrajTime nsteps step exits' c n dwell).1 j := by
  have hv : 0 < c / n := by positivity
  have hp' : 0 ≤ pathLength nsteps step exits' j := Finset.sum_nonneg fun e _ => hstep e j
  have hp : 0 ≤ pathLength nsteps step exits j := Finset.sum_nonneg fun e _ => hstep e j
  have hmono : pathLength nsteps step exits j ≤ pathLength nsteps step exits' j :=
    Finset.sum_le_sum_of_subset_of_nonneg (fun e he => by
      rw [Finset.mem_range] at *; omega) fun e _ _ => hstep e j
  show (if pathLength nsteps step exits j = 0 then 0 else pathLength nsteps step exits j / (c / n) + dwell) ≤
    (if pathLength nsteps step exits' j = 0 then 0 else pathLength nsteps step exits' j / (c / n) + dwell)
  split_ifs with h1 h2 h2
  · exact le_rfl
  · have := div_nonneg hp' hv.le; linarith
  · exact absurd (le_antisymm (h2 ▸ hmono) hp) h1
  · have := div_le_div_of_nonneg_right hmono hv.le; linarith

example : ∃ e < 2, (0:ℝ) < (fun (e : ℕ) (_ : Fin 1) => (e : ℝ)) e 0 := ⟨1, by norm_num, by norm_num⟩

/-- Non-vacuity of C62_transverse: one trajectory, reflected at its first event with a field of components 3 in the plane of detection and
transverse to the detection direction, and 2i out of the plane. -/
example (det : ℝ) : let fields : ℕ → Fin 1 → C3 := fun _ _ => ⟨3 * Real.cos det, 2 * Complex.I, 3 * Real.sin det⟩
    (totField fields (fun _ => 1) (fun _ => 1)).x = 3 * (Real.cos det : ℝ) ∧
    (totField fields (fun _ => 1) (fun _ => 1)).z = 3 * (Real.sin det : ℝ) ∧
    (totField fields (fun _ => 1) (fun _ => 1)).y = 2 * Complex.I := by
  simp [totField, reflField]

end Verif.Props
