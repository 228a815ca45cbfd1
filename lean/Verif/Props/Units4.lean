import Verif.Props.Polarization
import Verif.Props.Fields

/-!
# C135: the unit of length and the coherent reflectance

The fields of a bundle of trajectories are computed by `calc_fields` (Model/Traj) from the wavenumber `k` (the *number* of the wavenumber
in the unit of the wavelength) and the steps, and combined by `calc_refl_phase_fields` (Model/Polarization).  With a unit of length that
is `c` times smaller, the number of the wavenumber is `k / c` and the numbers of the steps are `c` times as large; angles, amplitude
scattering matrices and incident fields have no length in them.
-/

namespace Verif.Props
noncomputable section
open Verif.Traj Verif.Polar

variable {nt : ℕ}

/-- The sampled scattering of a bundle of trajectories: incident fields, amplitude scattering matrices, sines and cosines of the angles -/
structure ScatteredBundle (nt : ℕ) where
  nev : ℕ
  En : ℕ → Fin nt → C3
  S1 : ℕ → Fin nt → ℂ
  S2 : ℕ → Fin nt → ℂ
  S3 : ℕ → Fin nt → ℂ
  S4 : ℕ → Fin nt → ℂ
  st : ℕ → Fin nt → ℝ
  ct : ℕ → Fin nt → ℝ
  sp : ℕ → Fin nt → ℝ
  cp : ℕ → Fin nt → ℝ

/-- the fields that `calc_fields` computes for the bundle, for a wavenumber and steps given as numbers -/
def ScatteredBundle.fields (b : ScatteredBundle nt) (k : ℝ) (step : ℕ → Fin nt → ℝ) (e : ℕ) (j : Fin nt) : C3 :=
  calcFields b.nev (fun i => b.En i j) (fun i => b.S1 i j) (fun i => b.S2 i j) (fun i => b.S3 i j) (fun i => b.S4 i j)
    (fun i => b.st i j) (fun i => b.ct i j) (fun i => b.sp i j) (fun i => b.cp i j) k (fun i => step i j) e

private theorem field_modulus (b : ScatteredBundle nt) (k k' : ℝ) (step step' : ℕ → Fin nt → ℝ) (e : ℕ) (j : Fin nt) :
    Complex.normSq (b.fields k' step' e j).x = Complex.normSq (b.fields k step e j).x ∧
    Complex.normSq (b.fields k' step' e j).y = Complex.normSq (b.fields k step e j).y ∧
    Complex.normSq (b.fields k' step' e j).z = Complex.normSq (b.fields k step e j).z := by
  cases e with
  | zero => exact ⟨rfl, rfl, rfl⟩
  | succ e =>
    have h0 : ∀ (k k' : ℝ) , calcFields b.nev (fun i => b.En i j) (fun i => b.S1 i j) (fun i => b.S2 i j) (fun i => b.S3 i j) (fun i => b.S4 i j)
        (fun i => b.st i j) (fun i => b.ct i j) (fun i => b.sp i j) (fun i => b.cp i j) k (fun _ => 0) (e + 1) =
        calcFields b.nev (fun i => b.En i j) (fun i => b.S1 i j) (fun i => b.S2 i j) (fun i => b.S3 i j) (fun i => b.S4 i j)
        (fun i => b.st i j) (fun i => b.ct i j) (fun i => b.sp i j) (fun i => b.cp i j) k' (fun _ => 0) (e + 1) := by
      intro k k'
      have : ∀ k, stepPhase k (fun _ => 0) e = 1 := fun k => by rw [stepPhase_eq]; simp
      simp only [calcFields, fieldsPhase, this]
    have hn : ∀ x : ℝ, Complex.normSq (Complex.exp (Complex.I * x)) = 1 := by
      intro x
      rw [Complex.normSq_eq_norm_sq, mul_comm, Complex.norm_exp_ofReal_mul_I, one_pow]
    have h : ∀ k (step : ℕ → Fin nt → ℝ), b.fields k step (e + 1) j = _ := fun k step => C42_phase_factor_partial b.nev (fun i => b.En i j) (fun i => b.S1 i j) (fun i => b.S2 i j)
      (fun i => b.S3 i j) (fun i => b.S4 i j) (fun i => b.st i j) (fun i => b.ct i j) (fun i => b.sp i j) (fun i => b.cp i j) k (fun i => step i j) e
    rw [h k step, h k' step', h0 k' k]
    simp only [C3.smul, Complex.normSq_mul, hn, one_mul, and_self]

/-- **C135, what holds.**  In every unit of length the components of the fields of all trajectories at all events have the same moduli,
and the reflectance without interference is the same. -/
theorem C135_incoherent_partial (b : ScatteredBundle nt) (k : ℝ) (step : ℕ → Fin nt → ℝ) (ri : Fin nt → ℕ) (refl : Fin nt → ℝ) (c : ℝ) :
    (∀ e j, ‖(b.fields (k / c) (fun i j => c * step i j) e j).x‖ = ‖(b.fields k step e j).x‖ ∧
      ‖(b.fields (k / c) (fun i j => c * step i j) e j).y‖ = ‖(b.fields k step e j).y‖ ∧
      ‖(b.fields (k / c) (fun i j => c * step i j) e j).z‖ = ‖(b.fields k step e j).z‖) ∧
    (calcReflPhaseFields (b.fields (k / c) (fun i j => c * step i j)) ri refl).2.2 = (calcReflPhaseFields (b.fields k step) ri refl).2.2 := by
  have key := fun e j => field_modulus b k (k / c) step (fun i j => c * step i j) e j
  constructor
  · intro e j
    have hsq : ∀ u v : ℂ, Complex.normSq u = Complex.normSq v → ‖u‖ = ‖v‖ := fun u v h => by
      rw [Complex.normSq_eq_norm_sq, Complex.normSq_eq_norm_sq] at h
      exact (sq_eq_sq₀ (norm_nonneg _) (norm_nonneg _)).1 h
    exact ⟨hsq _ _ (key e j).1, hsq _ _ (key e j).2.1, hsq _ _ (key e j).2.2⟩
  · have hf : ∀ j, (reflField (b.fields (k / c) (fun i j => c * step i j)) ri refl j).normSq = (reflField (b.fields k step) ri refl j).normSq := by
      intro j
      unfold reflField
      dsimp only
      split
      · simp only [C3.normSq, Complex.normSq_mul, (key (ri j) j).1, (key (ri j) j).2.1, (key (ri j) j).2.2]
      · rfl
    simp only [phase_fields_eq, hf]

/-- two photons that are sent back by the sample unchanged -/
def twoPhotons : ScatteredBundle 2 :=
  ⟨1, fun _ _ => ⟨1, 0, 0⟩, fun _ _ => 1, fun _ _ => 1, fun _ _ => 0, fun _ _ => 0, fun _ _ => 0, fun _ _ => 1, fun _ _ => 0, fun _ _ => 1⟩

/-- **C135, refuted.**  The reflectance with interference depends on the unit of length: for two photons whose paths differ by half a
wavelength it is 2 (full constructive interference) in one unit and, correctly, 0 in a unit half as large. -/
theorem C135_coherent_refuted : ∃ (b : ScatteredBundle 2) (k : ℝ) (step : ℕ → Fin 2 → ℝ) (ri : Fin 2 → ℕ) (refl : Fin 2 → ℝ),
    k * step 0 1 - k * step 0 0 = Real.pi ∧
    (calcReflPhaseFields (b.fields k step) ri refl).2.1 = 2 ∧
    (calcReflPhaseFields (b.fields (k / 2) (fun i j => 2 * step i j)) ri refl).2.1 = 0 := by
  have hrow : ∀ (k : ℝ) (step : ℕ → Fin 2 → ℝ) (j : Fin 2), twoPhotons.fields k step 1 j = ⟨stepPhase k (fun i => step i j) 0, 0, 0⟩ := by
    intro k step j
    have h1 := norm_stepPhase k (fun i => step i j) 0
    simp [ScatteredBundle.fields, twoPhotons, calcFields, fieldsPhase, fieldsGlobal, fieldsLocal, normalizeC, C3.normSq, h1]
  have hint : ∀ (k : ℝ) (step : ℕ → Fin 2 → ℝ), (calcReflPhaseFields (twoPhotons.fields k step) (fun _ => 1) (fun _ => 1 / 2)).2.1 =
      Complex.normSq (stepPhase k (fun i => step i 0) 0 + stepPhase k (fun i => step i 1) 0) / 2 := by
    intro k step
    rw [(phase_fields_eq _ _ _).1]
    simp [totField, reflField, hrow, Fin.sum_univ_two, C3.normSq]
  refine ⟨twoPhotons, 2, fun _ j => Real.pi / 2 * (j.val + 1), fun _ => 1, fun _ => 1 / 2, ?_, ?_, ?_⟩
  · norm_num
    ring
  · rw [hint]
    have e1 : stepPhase 2 (fun _ => Real.pi / 2 * (((0 : Fin 2).val : ℝ) + 1)) 0 = 1 := by
      rw [stepPhase_eq, ← Complex.exp_two_pi_mul_I]
      congr 1
      push_cast
      simp
      ring
    have e2 : stepPhase 2 (fun _ => Real.pi / 2 * (((1 : Fin 2).val : ℝ) + 1)) 0 = 1 := by
      rw [stepPhase_eq, show (1 : ℂ) = Complex.exp (2 * Real.pi * Complex.I) * Complex.exp (2 * Real.pi * Complex.I) by
        rw [Complex.exp_two_pi_mul_I, one_mul], ← Complex.exp_add]
      congr 1
      push_cast
      simp
      ring
    rw [e1, e2]
    norm_num [Complex.normSq_apply]
  · rw [hint]
    have e1 : stepPhase (2 / 2) (fun _ => 2 * (Real.pi / 2 * (((0 : Fin 2).val : ℝ) + 1))) 0 = -1 := by
      rw [stepPhase_eq, ← Complex.exp_pi_mul_I]
      congr 1
      push_cast
      simp
      ring
    have e2 : stepPhase (2 / 2) (fun _ => 2 * (Real.pi / 2 * (((1 : Fin 2).val : ℝ) + 1))) 0 = 1 := by
      rw [stepPhase_eq, ← Complex.exp_two_pi_mul_I]
      congr 1
      push_cast
      simp
      ring
    rw [e1, e2]
    norm_num

/-- Non-vacuity of C135: the two photons have non-zero fields. -/
example : ‖(twoPhotons.fields 2 (fun _ _ => 0) 0 0).x‖ = 1 := by
  simp [ScatteredBundle.fields, twoPhotons, calcFields, fieldsPhase, fieldsGlobal, fieldsLocal, normalizeC, C3.normSq]

end
end Verif.Props
