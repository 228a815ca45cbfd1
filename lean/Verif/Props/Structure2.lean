import Verif.Props.Structure
import Mathlib.Analysis.SpecialFunctions.Integrals.Basic
import Mathlib.MeasureTheory.Integral.IntervalIntegral.FundThmCalculus
import Mathlib.MeasureTheory.Integral.DominatedConvergence
import Mathlib.Analysis.SpecialFunctions.Trigonometric.Sinc

/-!
# C73: the Percus-Yevick structure factor is the one of the hard-sphere direct correlation function
-/

namespace Verif.Props
open Verif.Structure Verif.XF
open Verif (XF PyErr)
open MeasureTheory

/-- an antiderivative of r (c0 + c1 r + c3 r³) sin(q r) -/
noncomputable def antider (q a b c r : ℝ) : ℝ :=
  a * (-r * Real.cos (q * r) / q + Real.sin (q * r) / q ^ 2)
  + b * (-r ^ 2 * Real.cos (q * r) / q + 2 * r * Real.sin (q * r) / q ^ 2 + 2 * Real.cos (q * r) / q ^ 3)
  + c * (-r ^ 4 * Real.cos (q * r) / q + 4 * r ^ 3 * Real.sin (q * r) / q ^ 2 + 12 * r ^ 2 * Real.cos (q * r) / q ^ 3
    - 24 * r * Real.sin (q * r) / q ^ 4 - 24 * Real.cos (q * r) / q ^ 5)

theorem antider_deriv (q a b c r : ℝ) (hq : q ≠ 0) :
    HasDerivAt (antider q a b c) (r * Real.sin (q * r) * (a + b * r + c * r ^ 3)) r := by
  have hlin : HasDerivAt (fun r : ℝ => q * r) q r := by simpa using (hasDerivAt_id r).const_mul q
  have hs : HasDerivAt (fun r => Real.sin (q * r)) (Real.cos (q * r) * q) r := hlin.sin
  have hc : HasDerivAt (fun r => Real.cos (q * r)) (-Real.sin (q * r) * q) r := hlin.cos
  have hid : HasDerivAt (fun r : ℝ => r) 1 r := hasDerivAt_id r
  have p2 : HasDerivAt (fun r : ℝ => r ^ 2) (2 * r) r := by simpa using hasDerivAt_pow 2 r
  have p3 : HasDerivAt (fun r : ℝ => r ^ 3) (3 * r ^ 2) r := by simpa using hasDerivAt_pow 3 r
  have p4 : HasDerivAt (fun r : ℝ => r ^ 4) (4 * r ^ 3) r := by simpa using hasDerivAt_pow 4 r
  have t1 := (((hid.neg.mul hc).div_const q).add (hs.div_const (q ^ 2))).const_mul a
  have t2 := ((((p2.neg.mul hc).div_const q).add (((hid.const_mul 2).mul hs).div_const (q ^ 2))).add
    ((hc.const_mul 2).div_const (q ^ 3))).const_mul b
  have t3 := ((((((p4.neg.mul hc).div_const q).add (((p3.const_mul 4).mul hs).div_const (q ^ 2))).add
    (((p2.const_mul 12).mul hc).div_const (q ^ 3))).sub (((hid.const_mul 24).mul hs).div_const (q ^ 4))).sub
    ((hc.const_mul 24).div_const (q ^ 5))).const_mul c
  have := (t1.add t2).add t3
  refine HasDerivAt.congr_deriv (f := antider q a b c) this ?_
  simp only [Pi.neg_apply]
  field_simp
  ring

theorem integral_poly (q a b c : ℝ) (hq : q ≠ 0) :
    ∫ r in (0:ℝ)..1, r * Real.sin (q * r) * (a + b * r + c * r ^ 3) = antider q a b c 1 - antider q a b c 0 := by
  apply intervalIntegral.integral_eq_sub_of_hasDerivAt
  · intro r _; exact antider_deriv q a b c r hq
  · apply Continuous.intervalIntegrable
    fun_prop

/-- only the part of the direct correlation function inside the core counts -/
theorem integral_cc (q phi R : ℝ) (hR : 1 ≤ R) :
    ∫ r in (0:ℝ)..R, r * Real.sin (q * r) * cc r phi = ∫ r in (0:ℝ)..1, r * Real.sin (q * r) * (c0 phi + c1 phi * r + c3 phi * r ^ 3) := by
  have e1 : Set.EqOn (fun r => r * Real.sin (q * r) * cc r phi) (fun r => r * Real.sin (q * r) * (c0 phi + c1 phi * r + c3 phi * r ^ 3))
      (Set.uIoc 0 1) := by
    intro r hr
    rw [Set.uIoc_of_le zero_le_one] at hr
    simp only [cc]
    rw [if_neg (not_lt.mpr hr.2)]
  have e2 : Set.EqOn (fun r => r * Real.sin (q * r) * cc r phi) (fun _ => 0) (Set.uIoc 1 R) := by
    intro r hr
    rw [Set.uIoc_of_le hR] at hr
    simp only [cc]
    rw [if_pos hr.1, mul_zero]
  have i1 : IntervalIntegrable (fun r => r * Real.sin (q * r) * (c0 phi + c1 phi * r + c3 phi * r ^ 3)) volume 0 1 := by
    apply Continuous.intervalIntegrable; fun_prop
  have i2 : IntervalIntegrable (fun _ : ℝ => (0:ℝ)) volume 1 R := by
    apply Continuous.intervalIntegrable; fun_prop
  rw [← intervalIntegral.integral_add_adjacent_intervals (i1.congr e1.symm) (i2.congr e2.symm),
    intervalIntegral.integral_congr_ae (Filter.Eventually.of_forall e1),
    intervalIntegral.integral_congr_ae (Filter.Eventually.of_forall e2)]
  simp

/-- C73.  The structure factor of `factor_py` is 1/(1 - ρ ĉ(q)), where ĉ is the spherical Fourier transform of the direct correlation
function that `radial_dist_py` uses, lengths being in diameters: ρ = 6φ/π and ĉ(q) = (4π/q) ∫ r sin(q r) c(r) dr. -/
theorem C73_py_direct_correlation (q phi R : ℝ) (hq : q ≠ 0) (h0 : 0 ≤ phi) (h1 : phi < 1) (hR : 1 ≤ R) :
    factorPy q phi = fin (1 / (1 - 6 * phi / Real.pi * (4 * Real.pi / q * ∫ r in (0:ℝ)..R, r * Real.sin (q * r) * cc r phi))) := by
  rw [factorPy_eq q phi hq h0 h1, integral_cc q phi R hR, integral_poly q _ _ _ hq]
  have hg : 1 - phi ≠ 0 := by linarith
  congr 3
  unfold cReal antider c3 c1 c0
  simp only [mul_one, mul_zero, Real.sin_zero, Real.cos_zero]
  have := Real.pi_ne_zero
  field_simp
  ring

/-- the transform as an integral that makes sense at q = 0 -/
noncomputable def cInt (phi q : ℝ) : ℝ :=
  ∫ r in (0:ℝ)..1, r ^ 2 * Real.sinc (q * r) * (c0 phi + c1 phi * r + c3 phi * r ^ 3)

theorem cInt_continuous (phi : ℝ) : Continuous (cInt phi) := by
  unfold cInt
  apply intervalIntegral.continuous_parametric_intervalIntegral_of_continuous
  · have := Real.continuous_sinc
    have h : Continuous fun p : ℝ × ℝ => p.2 ^ 2 * Real.sinc (p.1 * p.2) * (c0 phi + c1 phi * p.2 + c3 phi * p.2 ^ 3) := by fun_prop
    exact h
  · exact continuous_const

theorem cReal_eq_cInt (q phi : ℝ) (hq : q ≠ 0) (h0 : 0 ≤ phi) (h1 : phi < 1) : cReal q phi = 24 * phi * cInt phi q := by
  have e : cInt phi q = 1 / q * ∫ r in (0:ℝ)..1, r * Real.sin (q * r) * (c0 phi + c1 phi * r + c3 phi * r ^ 3) := by
    unfold cInt
    rw [← intervalIntegral.integral_const_mul]
    congr 1
    funext r
    by_cases hr : r = 0
    · subst hr; simp
    · rw [Real.sinc_of_ne_zero (mul_ne_zero hq hr)]
      field_simp
  rw [e, integral_poly q _ _ _ hq]
  have hg : 1 - phi ≠ 0 := by linarith
  unfold cReal antider c3 c1 c0
  simp only [mul_one, mul_zero, Real.sin_zero, Real.cos_zero]
  field_simp
  ring

theorem cInt_zero (phi : ℝ) (h0 : 0 ≤ phi) (h1 : phi < 1) : 1 - 24 * phi * cInt phi 0 = (1 + 2 * phi) ^ 2 / (1 - phi) ^ 4 := by
  have e : cInt phi 0 = c0 phi / 3 + c1 phi / 4 + c3 phi / 6 := by
    unfold cInt
    have : ∀ r : ℝ, r ^ 2 * Real.sinc (0 * r) * (c0 phi + c1 phi * r + c3 phi * r ^ 3) = c0 phi * r ^ 2 + c1 phi * r ^ 3 + c3 phi * r ^ 5 := by
      intro r; simp only [zero_mul, Real.sinc_zero]; ring
    simp only [this]
    rw [intervalIntegral.integral_add, intervalIntegral.integral_add]
    · simp only [intervalIntegral.integral_const_mul, integral_pow]
      norm_num; ring
    all_goals apply Continuous.intervalIntegrable; fun_prop
  have hg : 1 - phi ≠ 0 := by linarith
  rw [e]
  unfold c3 c1 c0
  field_simp
  ring

/-- C73.  As the wavevector goes to zero the structure factor tends to the Percus-Yevick compressibility (1-φ)⁴/(1+2φ)², although at
zero itself NaN is returned (`C54_py_at_zero`). -/
theorem C73_py_compressibility (phi : ℝ) (h0 : 0 ≤ phi) (h1 : phi < 1) :
    ∀ ε > 0, ∃ δ > 0, ∀ q, q ≠ 0 → |q| < δ → ∃ s, factorPy q phi = fin s ∧ |s - (1 - phi) ^ 4 / (1 + 2 * phi) ^ 2| < ε := by
  intro ε hε
  have hlim : (1 - phi) ^ 4 / (1 + 2 * phi) ^ 2 = 1 / (1 - 24 * phi * cInt phi 0) := by
    rw [cInt_zero phi h0 h1]; field_simp
  have hne : 1 - 24 * phi * cInt phi 0 ≠ 0 := by
    rw [cInt_zero phi h0 h1]
    have : 0 < (1 - phi) := by linarith
    positivity
  have hc : ContinuousAt (fun q => 1 / (1 - 24 * phi * cInt phi q)) 0 := by
    have := (cInt_continuous phi).continuousAt (x := 0)
    exact ContinuousAt.div continuousAt_const (by fun_prop) hne
  rw [Metric.continuousAt_iff] at hc
  obtain ⟨δ, hδ, H⟩ := hc ε hε
  refine ⟨δ, hδ, fun q hq hqd => ⟨_, factorPy_eq q phi hq h0 h1, ?_⟩⟩
  have := H (x := q) (by simpa [Real.dist_eq] using hqd)
  rw [Real.dist_eq] at this
  rw [hlim, cReal_eq_cInt q phi hq h0 h1]
  exact this

/-- the transform decays like 1/q² -/
theorem cReal_bound (phi : ℝ) (h0 : 0 ≤ phi) (h1 : phi < 1) : ∃ K, 0 < K ∧ ∀ q, 1 ≤ |q| → |cReal q phi| ≤ K / q ^ 2 := by
  have hg : 0 < 1 - phi := by linarith
  set a := (1 + 2 * phi) ^ 2 / (1 - phi) ^ 4 with ha
  set b := (1 + phi / 2) ^ 2 / (1 - phi) ^ 4 with hb
  have ha0 : 0 ≤ a := by positivity
  have hb0 : 0 ≤ b := by positivity
  refine ⟨24 * phi * (2 * a + 6 * phi * b * 7 + phi * a / 2 * 89) + 1, by positivity, fun q hq => ?_⟩
  have hq0 : q ≠ 0 := by rintro rfl; simp at hq; linarith
  have s1 := Real.abs_sin_le_one q
  have c1 := Real.abs_cos_le_one q
  have hQ : 0 < |q| := by linarith
  have hsq : q ^ 2 = |q| ^ 2 := (sq_abs q).symm
  have e : cReal q phi = -24 * phi * (a * (Real.sin q - q * Real.cos q) / q ^ 3
    + 6 * phi * b * (q ^ 2 * Real.cos q - 2 * q * Real.sin q - 2 * Real.cos q + 2) / q ^ 4
    - phi * a / 2 * (q ^ 4 * Real.cos q - 4 * q ^ 3 * Real.sin q - 12 * q ^ 2 * Real.cos q
      + 24 * q * Real.sin q + 24 * Real.cos q - 24) / q ^ 6) := by
    unfold cReal; rw [ha, hb]; ring
  set u := |q| with hu
  have hpow : ∀ k : ℕ, 1 ≤ u ^ k := fun k => one_le_pow₀ hq
  generalize Real.sin q = s at *
  generalize Real.cos q = c at *
  have T : ∀ (x : ℝ) (k : ℕ), |x| ≤ 1 → |q ^ k * x| ≤ u ^ k := by
    intro x k hx
    rw [abs_mul, abs_pow]
    nlinarith [hpow k, abs_nonneg x]
  have mono : ∀ j k : ℕ, j ≤ k → u ^ j ≤ u ^ k := fun j k h => pow_le_pow_right₀ hq h
  have up : ∀ x y : ℝ, |x| ≤ y → x ≤ y ∧ -x ≤ y := fun x y h => ⟨(le_abs_self x).trans h, (neg_le_abs x).trans h⟩
  have h01 : 1 ≤ u := hq
  have h12 : u ≤ u ^ 2 := by simpa using mono 1 2 (by norm_num)
  have h23 := mono 2 3 (by norm_num)
  have h34 := mono 3 4 (by norm_num)
  have S0 := up _ _ s1
  have C0 := up _ _ c1
  have S1 := up _ _ (T s 1 s1)
  have C1 := up _ _ (T c 1 c1)
  have C2 := up _ _ (T c 2 c1)
  have S3 := up _ _ (T s 3 s1)
  have C4 := up _ _ (T c 4 c1)
  simp only [pow_one] at S1 C1
  have quot : ∀ (N K : ℝ) (k : ℕ), |N| ≤ K * u ^ k → |N / q ^ (k + 2)| ≤ K / q ^ 2 := by
    intro N K k h
    rw [abs_div, abs_pow, ← hu, hsq, div_le_div_iff₀ (by positivity) (by positivity)]
    calc |N| * u ^ 2 ≤ K * u ^ k * u ^ 2 := by gcongr
      _ = K * u ^ (k + 2) := by ring
  have b1 := quot (s - q * c) 2 1 (by rw [pow_one, abs_le]; constructor <;> linarith [S0.1, S0.2, C1.1, C1.2])
  have b2 := quot (q ^ 2 * c - 2 * q * s - 2 * c + 2) 7 2 (by
    rw [abs_le]; constructor <;> linarith [S1.1, S1.2, C0.1, C0.2, C2.1, C2.2])
  have b3 := quot (q ^ 4 * c - 4 * q ^ 3 * s - 12 * q ^ 2 * c + 24 * q * s + 24 * c - 24) 89 4 (by
    rw [abs_le]; constructor <;> linarith [S1.1, S1.2, C0.1, C0.2, C2.1, C2.2, S3.1, S3.2, C4.1, C4.2])
  have hq2 : 0 < q ^ 2 := by positivity
  rw [e]
  have e2 : -24 * phi * (a * (s - q * c) / q ^ 3
    + 6 * phi * b * (q ^ 2 * c - 2 * q * s - 2 * c + 2) / q ^ 4
    - phi * a / 2 * (q ^ 4 * c - 4 * q ^ 3 * s - 12 * q ^ 2 * c + 24 * q * s + 24 * c - 24) / q ^ 6) =
    -(24 * phi) * (a * ((s - q * c) / q ^ (1 + 2)) + 6 * phi * b * ((q ^ 2 * c - 2 * q * s - 2 * c + 2) / q ^ (2 + 2))
      - phi * a / 2 * ((q ^ 4 * c - 4 * q ^ 3 * s - 12 * q ^ 2 * c + 24 * q * s + 24 * c - 24) / q ^ (4 + 2))) := by ring
  rw [e2, abs_mul, abs_neg, abs_of_nonneg (by positivity : 0 ≤ 24 * phi)]
  generalize (s - q * c) / q ^ (1 + 2) = X at *
  generalize (q ^ 2 * c - 2 * q * s - 2 * c + 2) / q ^ (2 + 2) = Y at *
  generalize (q ^ 4 * c - 4 * q ^ 3 * s - 12 * q ^ 2 * c + 24 * q * s + 24 * c - 24) / q ^ (4 + 2) = Z at *
  have k2 : 0 ≤ 6 * phi * b := by positivity
  have k3 : 0 ≤ phi * a / 2 := by positivity
  have habs : |a * X + 6 * phi * b * Y - phi * a / 2 * Z| ≤ a * (2 / q ^ 2) + 6 * phi * b * (7 / q ^ 2) + phi * a / 2 * (89 / q ^ 2) := by
    calc |a * X + 6 * phi * b * Y - phi * a / 2 * Z| ≤ |a * X + 6 * phi * b * Y| + |phi * a / 2 * Z| := abs_sub _ _
      _ ≤ |a * X| + |6 * phi * b * Y| + |phi * a / 2 * Z| := by gcongr; exact abs_add_le _ _
      _ = a * |X| + 6 * phi * b * |Y| + phi * a / 2 * |Z| := by
        rw [abs_mul a, abs_mul (6 * phi * b), abs_mul (phi * a / 2), abs_of_nonneg ha0, abs_of_nonneg k2, abs_of_nonneg k3]
      _ ≤ _ := by gcongr
  calc 24 * phi * |a * X + 6 * phi * b * Y - phi * a / 2 * Z|
      ≤ 24 * phi * (a * (2 / q ^ 2) + 6 * phi * b * (7 / q ^ 2) + phi * a / 2 * (89 / q ^ 2)) := by gcongr
    _ = 24 * phi * (2 * a + 6 * phi * b * 7 + phi * a / 2 * 89) / q ^ 2 := by ring
    _ ≤ _ := by gcongr; linarith

/-- C73.  At large wavevectors the structure factor tends to 1. -/
theorem C73_py_large_q (phi : ℝ) (h0 : 0 ≤ phi) (h1 : phi < 1) :
    ∀ ε > 0, ∃ Q > 0, ∀ q, Q < |q| → ∃ s, factorPy q phi = fin s ∧ |s - 1| < ε := by
  intro ε hε
  obtain ⟨K, hK, hb⟩ := cReal_bound phi h0 h1
  refine ⟨1 + 2 * K + 4 * K / ε, by positivity, fun q hq => ?_⟩
  have hq1 : 1 ≤ |q| := by
    have : 0 < 4 * K / ε := by positivity
    linarith
  have hq0 : q ≠ 0 := by rintro rfl; simp at hq1; linarith
  refine ⟨_, factorPy_eq q phi hq0 h0 h1, ?_⟩
  have hc := hb q hq1
  have hpos := one_sub_cReal_pos q phi hq0 h0 h1
  have hq2 : |q| ≤ q ^ 2 := by rw [← sq_abs]; nlinarith
  have hKε : 4 * K < ε * q ^ 2 := by
    have h4 : 4 * K / ε < q ^ 2 := by
      have : 0 < 2 * K := by linarith
      linarith
    rw [div_lt_iff₀ hε] at h4; linarith
  have hc2 : |cReal q phi| ≤ 1 / 2 := by
    refine hc.trans ?_
    rw [div_le_iff₀ (by positivity)]
    have : 0 < 4 * K / ε := by positivity
    linarith
  have hc3 : |cReal q phi| < ε / 2 := by
    refine hc.trans_lt ?_
    rw [div_lt_iff₀ (by positivity)]
    linarith
  have e : 1 / (1 - cReal q phi) - 1 = cReal q phi / (1 - cReal q phi) := by field_simp; ring
  rw [e, abs_div, abs_of_pos hpos, div_lt_iff₀ hpos]
  have := le_abs_self (cReal q phi)
  nlinarith

example : (0 : ℝ) ≤ 0.55 ∧ (0.55 : ℝ) < 1 := by norm_num

end Verif.Props
