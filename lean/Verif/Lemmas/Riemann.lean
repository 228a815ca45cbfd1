import Verif.Lemmas.Trapz
import Mathlib.MeasureTheory.Integral.IntervalIntegral.Basic
import Mathlib.MeasureTheory.Integral.DominatedConvergence
import Mathlib.MeasureTheory.Function.Floor

/-!
# Riemann sums and the trapezoid rule converge for bounded functions continuous almost everywhere
-/

namespace Verif.Riemann

open MeasureTheory Filter Topology Set
open Verif.SingleScat Verif.Traj

/-- the step function through the left ends of `n` equal pieces of the unit interval -/
noncomputable def leftEnd (n : ℕ) (u : ℝ) : ℝ := (⌊(n : ℝ) * u⌋ : ℝ) / n

theorem leftEnd_tendsto (u : ℝ) : Tendsto (fun n : ℕ => leftEnd n u) atTop (𝓝 u) := by
  rw [Metric.tendsto_atTop]
  intro ε hε
  obtain ⟨N, hN⟩ := exists_nat_gt (1 / ε)
  refine ⟨N + 1, fun n hn => ?_⟩
  have hn0 : (0 : ℝ) < n := by exact_mod_cast (by omega : 0 < n)
  have hN0 : (N : ℝ) < n := by exact_mod_cast (by omega : N < n)
  have e1 := Int.floor_le ((n : ℝ) * u)
  have e2 := Int.lt_floor_add_one ((n : ℝ) * u)
  have e3 : 1 / (n : ℝ) < ε := by
    rw [div_lt_iff₀ hn0]
    have : 1 / ε * ε = 1 := by field_simp
    nlinarith
  rw [Real.dist_eq, abs_lt]
  unfold leftEnd
  have e4 : u - 1 / n < (⌊(n : ℝ) * u⌋ : ℝ) / n := by
    rw [lt_div_iff₀ hn0, sub_mul, div_mul_cancel₀ _ hn0.ne']; linarith
  have e5 : (⌊(n : ℝ) * u⌋ : ℝ) / n ≤ u := by
    rw [div_le_iff₀ hn0]; linarith
  constructor <;> linarith

theorem leftEnd_mem {n : ℕ} (hn : 0 < n) {u : ℝ} (h0 : 0 ≤ u) (h1 : u ≤ 1) : leftEnd n u ∈ Icc (0 : ℝ) 1 := by
  have hn0 : (0 : ℝ) < n := by exact_mod_cast hn
  have e1 := Int.floor_le ((n : ℝ) * u)
  have e2 : (0 : ℝ) ≤ (⌊(n : ℝ) * u⌋ : ℝ) := by exact_mod_cast Int.floor_nonneg.mpr (mul_nonneg hn0.le h0)
  refine ⟨div_nonneg e2 hn0.le, ?_⟩
  unfold leftEnd
  rw [div_le_one hn0]
  nlinarith

theorem leftEnd_measurable (h : ℝ → ℝ) (n : ℕ) : Measurable fun u => h (leftEnd n u) := by
  have : (fun u => h (leftEnd n u)) = (fun k : ℤ => h ((k : ℝ) / n)) ∘ fun u : ℝ => ⌊(n : ℝ) * u⌋ := rfl
  rw [this]
  exact (measurable_from_top).comp (Int.measurable_floor.comp (measurable_const.mul measurable_id))

/-- the integral of the step function is the Riemann sum -/
theorem integral_leftEnd (h : ℝ → ℝ) {n : ℕ} (hn : 0 < n) :
    ∫ u in (0 : ℝ)..1, h (leftEnd n u) = (∑ i ∈ Finset.range n, h (i / n)) / n := by
  have hn0 : (0 : ℝ) < n := by exact_mod_cast hn
  have hpt : ∀ i : ℕ, (i : ℝ) / n ≤ ((i + 1 : ℕ) : ℝ) / n := fun i => by
    push_cast
    exact div_le_div_of_nonneg_right (by linarith) hn0.le
  have hpiece : ∀ i : ℕ, ∀ u ∈ Ioo ((i : ℝ) / n) (((i + 1 : ℕ) : ℝ) / n), h (leftEnd n u) = h (i / n) := by
    intro i u hu
    have a1 := (div_lt_iff₀ hn0).mp hu.1
    have a2 := (lt_div_iff₀ hn0).mp hu.2
    push_cast at a2
    have : ⌊(n : ℝ) * u⌋ = (i : ℤ) := by
      rw [Int.floor_eq_iff]
      constructor
      · push_cast; linarith
      · push_cast; linarith
    unfold leftEnd
    rw [this, Int.cast_natCast]
  have hae : ∀ i : ℕ, ∀ᵐ u, u ∈ Ioc ((i : ℝ) / n) (((i + 1 : ℕ) : ℝ) / n) → h (leftEnd n u) = h (i / n) := by
    intro i
    have : ∀ᵐ u : ℝ, u ≠ ((i + 1 : ℕ) : ℝ) / n := by
      rw [ae_iff]; simp
    filter_upwards [this] with u hu hmem
    exact hpiece i u ⟨hmem.1, lt_of_le_of_ne hmem.2 hu⟩
  have hint : ∀ i : ℕ, ∫ u in ((i : ℝ) / n)..(((i + 1 : ℕ) : ℝ) / n), h (leftEnd n u) = h (i / n) / n := by
    intro i
    have : ∫ u in ((i : ℝ) / n)..(((i + 1 : ℕ) : ℝ) / n), h (leftEnd n u) = ∫ u in ((i : ℝ) / n)..(((i + 1 : ℕ) : ℝ) / n), h (i / n) := by
      refine intervalIntegral.integral_congr_ae ?_
      rw [uIoc_of_le (hpt i)]
      exact hae i
    rw [this, intervalIntegral.integral_const, smul_eq_mul]
    push_cast
    field_simp
    ring
  have hii : ∀ i < n, IntervalIntegrable (fun u => h (leftEnd n u)) volume ((i : ℝ) / n) (((i + 1 : ℕ) : ℝ) / n) := by
    intro i _
    rw [intervalIntegrable_iff_integrableOn_Ioc_of_le (hpt i)]
    refine IntegrableOn.congr_fun_ae (f := fun _ => h (i / n)) (by simp) ?_
    rw [Filter.EventuallyEq, ae_restrict_iff' measurableSet_Ioc]
    filter_upwards [hae i] with u hu hm
    exact (hu hm).symm
  have := intervalIntegral.sum_integral_adjacent_intervals (a := fun i : ℕ => (i : ℝ) / n) (f := fun u => h (leftEnd n u)) (μ := volume)
    (n := n) (fun i hi => hii i hi)
  simp only [Nat.cast_zero, zero_div, div_self hn0.ne'] at this
  rw [← this, Finset.sum_div]
  exact Finset.sum_congr rfl fun i _ => hint i

/-- Riemann sums converge. -/
theorem riemann_unit (h : ℝ → ℝ) (C : ℝ) (hC : ∀ u ∈ Icc (0 : ℝ) 1, |h u| ≤ C)
    (hc : ∀ᵐ u, u ∈ Icc (0 : ℝ) 1 → ContinuousWithinAt h (Icc 0 1) u) :
    Tendsto (fun n : ℕ => (∑ i ∈ Finset.range n, h (i / n)) / n) atTop (𝓝 (∫ u in (0 : ℝ)..1, h u)) := by
  have key : Tendsto (fun n : ℕ => ∫ u in (0 : ℝ)..1, h (leftEnd n u)) atTop (𝓝 (∫ u in (0 : ℝ)..1, h u)) := by
    refine intervalIntegral.tendsto_integral_filter_of_dominated_convergence (fun _ => C) ?_ ?_ ?_ ?_
    · exact Eventually.of_forall fun n => (leftEnd_measurable h n).aestronglyMeasurable
    · filter_upwards [eventually_gt_atTop 0] with n hn
      refine Eventually.of_forall fun u hu => ?_
      rw [uIoc_of_le zero_le_one] at hu
      exact hC _ (leftEnd_mem hn hu.1.le hu.2)
    · exact intervalIntegrable_const
    · filter_upwards [hc] with u hu hmem
      rw [uIoc_of_le zero_le_one] at hmem
      have hm : u ∈ Icc (0 : ℝ) 1 := ⟨hmem.1.le, hmem.2⟩
      refine (hu hm).tendsto.comp ?_
      refine tendsto_nhdsWithin_iff.mpr ⟨leftEnd_tendsto u, ?_⟩
      filter_upwards [eventually_gt_atTop 0] with n hn
      exact leftEnd_mem hn hm.1 hm.2
  refine key.congr' ?_
  filter_upwards [eventually_gt_atTop 0] with n hn
  exact integral_leftEnd h hn

/-- Sums over the points of `np.linspace(a, b, num)`, both ends included, divided by the number of pieces. -/
theorem linspace_sum_tendsto {a b : ℝ} (hab : a < b) (f : ℝ → ℝ) (C : ℝ) (hC : ∀ x ∈ Icc a b, |f x| ≤ C)
    (hc : ∀ᵐ x, x ∈ Icc a b → ContinuousWithinAt f (Icc a b) x) :
    Tendsto (fun n : ℕ => (b - a) / n * ∑ i ∈ Finset.range (n + 1), f (linspace a b (n + 1) i)) atTop (𝓝 (∫ x in a..b, f x)) := by
  have hba : 0 < b - a := by linarith
  set h : ℝ → ℝ := fun u => f (a + (b - a) * u) with hh
  have hmem : ∀ u ∈ Icc (0 : ℝ) 1, a + (b - a) * u ∈ Icc a b := fun u hu => by
    constructor <;> nlinarith [hu.1, hu.2]
  have hmem' : MapsTo (fun u : ℝ => a + (b - a) * u) (Icc (0 : ℝ) 1) (Icc a b) := hmem
  have hcu : ∀ᵐ u, u ∈ Icc (0 : ℝ) 1 → ContinuousWithinAt h (Icc 0 1) u := by
    have hq : Measure.QuasiMeasurePreserving (fun u : ℝ => a + (b - a) * u) volume volume := by
      have e1 : Measure.QuasiMeasurePreserving (fun u : ℝ => (b - a) * u) volume volume := by
        refine ⟨measurable_const_mul _, ?_⟩
        rw [Real.map_volume_mul_left hba.ne']
        exact Measure.smul_absolutelyContinuous
      exact (measurePreserving_add_left volume a).quasiMeasurePreserving.comp e1
    filter_upwards [hq.ae hc] with u hu hm
    have hcw : ContinuousWithinAt (fun u : ℝ => a + (b - a) * u) (Icc (0 : ℝ) 1) u := by fun_prop
    exact ContinuousWithinAt.comp (g := f) (f := fun u : ℝ => a + (b - a) * u) (hu (hmem u hm)) hcw hmem'
  have base := riemann_unit h C (fun u hu => hC _ (hmem u hu)) hcu
  have hint : (b - a) * ∫ u in (0 : ℝ)..1, h u = ∫ x in a..b, f x := by
    have := intervalIntegral.smul_integral_comp_add_mul (a := 0) (b := 1) f (b - a) a
    simp only [mul_zero, add_zero, mul_one, smul_eq_mul] at this
    rw [hh, this]
    congr 1; ring
  have last : Tendsto (fun n : ℕ => (b - a) / n * f b) atTop (𝓝 0) := by
    have := (tendsto_const_div_atTop_nhds_zero_nat (b - a)).mul_const (f b)
    simpa using this
  have sum := (base.const_mul (b - a)).add last
  rw [hint, add_zero] at sum
  refine sum.congr' ?_
  filter_upwards [eventually_gt_atTop 0] with n hn
  have hn0 : (0 : ℝ) < n := by exact_mod_cast hn
  have hls : ∀ i, linspace a b (n + 1) i = a + (b - a) * (i / n) := fun i => by
    unfold linspace
    rw [if_neg (by omega)]
    push_cast
    rw [add_sub_cancel_right]; ring
  rw [Finset.sum_range_succ, hls n, div_self hn0.ne', mul_one, show a + (b - a) = b by ring,
    Finset.sum_congr rfl fun i _ => congrArg f (hls i)]
  simp only [hh]
  ring

/-- The trapezoid rule converges. -/
theorem trapz_tendsto {a b : ℝ} (hab : a ≤ b) (f : ℝ → ℝ) (C : ℝ) (hC : ∀ x ∈ Icc a b, |f x| ≤ C)
    (hc : ∀ᵐ x, x ∈ Icc a b → ContinuousWithinAt f (Icc a b) x) :
    Tendsto (fun n : ℕ => trapz n (fun i => f (linspace a b n i)) (linspace a b n)) atTop (𝓝 (∫ x in a..b, f x)) := by
  rcases eq_or_lt_of_le hab with rfl | hlt
  · have : ∀ n : ℕ, trapz n (fun i => f (linspace a a n i)) (linspace a a n) = 0 := fun n => by
      have : ∀ i, linspace a a n i = a := fun i => by unfold linspace; split <;> simp
      simp [trapz, this]
    simp [this]
  · rw [← tendsto_add_atTop_iff_nat 1]
    have base := linspace_sum_tendsto hlt f C hC hc
    have ends : Tendsto (fun n : ℕ => (b - a) / n * ((f a + f b) / 2)) atTop (𝓝 0) := by
      have := (tendsto_const_div_atTop_nhds_zero_nat (b - a)).mul_const ((f a + f b) / 2)
      simpa using this
    have sum := base.sub ends
    rw [sub_zero] at sum
    refine sum.congr' ?_
    filter_upwards [eventually_gt_atTop 0] with n hn
    have hn0 : (0 : ℝ) < n := by exact_mod_cast hn
    have hls : ∀ i, linspace a b (n + 1) i = a + i * ((b - a) / n) := fun i => by
      unfold linspace
      rw [if_neg (by omega)]
      push_cast
      rw [add_sub_cancel_right]
    have h0 : f (linspace a b (n + 1) 0) = f a := by rw [hls]; simp
    have h1 : f (linspace a b (n + 1) n) = f b := by rw [hls]; congr 1; field_simp; ring
    have step : ∀ i : ℕ, linspace a b (n + 1) (i + 1) - linspace a b (n + 1) i = (b - a) / n := fun i => by
      rw [hls, hls]; push_cast; ring
    unfold trapz
    simp only [Nat.add_sub_cancel, step]
    have e : ∑ i ∈ Finset.range n, (b - a) / n * (f (linspace a b (n + 1) i) + f (linspace a b (n + 1) (i + 1))) / 2 =
        (b - a) / n * ((∑ i ∈ Finset.range n, f (linspace a b (n + 1) i)) / 2 + (∑ i ∈ Finset.range n, f (linspace a b (n + 1) (i + 1))) / 2) := by
      rw [← add_div, ← Finset.sum_add_distrib, ← mul_div_assoc, Finset.mul_sum, Finset.sum_div]
    have s1 := Finset.sum_range_succ (fun i => f (linspace a b (n + 1) i)) n
    have s2 := Finset.sum_range_succ' (fun i => f (linspace a b (n + 1) i)) n
    rw [e, ← mul_sub]
    congr 1
    rw [h1] at s1
    rw [h0] at s2
    linarith

theorem trapz_tendsto_of_continuousOn {a b : ℝ} (hab : a ≤ b) {f : ℝ → ℝ} (hf : ContinuousOn f (Icc a b)) :
    Tendsto (fun n : ℕ => trapz n (fun i => f (linspace a b n i)) (linspace a b n)) atTop (𝓝 (∫ x in a..b, f x)) := by
  obtain ⟨C, hC⟩ := isCompact_Icc.exists_bound_of_continuousOn hf
  exact trapz_tendsto hab f C hC (Eventually.of_forall fun x hx => hf x hx)

end Verif.Riemann
