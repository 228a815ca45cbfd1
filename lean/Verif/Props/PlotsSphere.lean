import Verif.Model.PlotsSphere
import Verif.Props.Spheres
import Mathlib.Analysis.SpecialFunctions.Trigonometric.Inverse

/-!
# C140: what the plots of phase functions and exit points of a structured sphere show
-/

namespace Verif.Props
noncomputable section
open Classical XF Verif.PlotsSphere Verif.Spheres
open Verif.Spec (V3)

private theorem firstDiff_ok {n : ℕ} (a : Fin (n + 2) → ℝ) : firstDiff a = .ok (a 1 - a 0) := by
  simp [firstDiff]

private theorem sum_mul_fin {n : ℕ} (v : Fin n → ℝ) (d : ℝ) : ∑ k, fin (v k) * fin d = fin ((∑ k, v k) * d) := by
  simp only [fin_mul, sum_fin, Finset.sum_mul]

private theorem nu_back {v : ℝ} (h : 0 ≤ v ∧ v ≤ 1) : (Real.cos (Real.arccos (2 * v - 1)) + 1) / 2 = v := by
  rw [Real.cos_arccos (by linarith) (by linarith)]; ring

/-- a density over points with spacing `d`: non-negative values, in the ratio of the values of `f`, whose sum times `d` is 1 -/
def Normalised {ι : Type} [Fintype ι] (d : ℝ) (f y : ι → ℝ) : Prop :=
  (∀ i, 0 ≤ y i) ∧ (∑ i, y i) * d = 1 ∧ ∀ i j, y i * f j = y j * f i

private theorem normalise {ι : Type} [Fintype ι] {d : ℝ} (hd : 0 < d) {f : ι → ℝ} (h0 : ∀ i, 0 ≤ f i) (h1 : ∃ i, 0 < f i) :
    Normalised d f (fun i => f i / ((∑ k, f k) * d)) ∧ (∑ k, f k) * d ≠ 0 := by
  obtain ⟨i, hi⟩ := h1
  have hs : 0 < ∑ k, f k := Finset.sum_pos' (fun i _ => h0 i) ⟨i, Finset.mem_univ _, hi⟩
  have hsd := mul_pos hs hd
  refine ⟨⟨fun i => div_nonneg (h0 i) hsd.le, ?_, fun i j => by ring⟩, hsd.ne'⟩
  rw [← Finset.sum_div, div_mul_eq_mul_div, div_self hsd.ne']

/-- C140, the polar plot.  For a density that is not zero at all of at least two values of nu in [0, 1], the first two in increasing
order, `plot_phase_func(pdf, nu)` draws at each nu, at the angle in [0, π] whose cosine is `2 nu - 1`, a non-negative number in
proportion to the density, and the numbers add up to 1 when weighted with the spacing of nu. -/
theorem C140_polar_plot_partial {n : ℕ} (pdf : ℝ → ℝ) (nu : Fin (n + 2) → ℝ) (hnu : ∀ i, 0 ≤ nu i ∧ nu i ≤ 1) (hinc : nu 0 < nu 1)
    (h0 : ∀ i, 0 ≤ pdf (nu i)) (h1 : ∃ i, 0 < pdf (nu i)) :
    ∃ θ y : Fin (n + 2) → ℝ, plotPhaseFunc1 pdf nu = .ok (fun i => (fin (θ i), fin (y i))) ∧
      (∀ i, 0 ≤ θ i ∧ θ i ≤ Real.pi ∧ Real.cos (θ i) = 2 * nu i - 1) ∧
      Normalised (nu 1 - nu 0) (fun i => pdf (nu i)) y := by
  obtain ⟨hN, hne⟩ := normalise (sub_pos.mpr hinc) h0 h1
  refine ⟨fun i => Real.arccos (2 * nu i - 1), _, ?_, fun i => ⟨Real.arccos_nonneg _, Real.arccos_le_pi _,
    Real.cos_arccos (by linarith [hnu i]) (by linarith [hnu i])⟩, hN⟩
  simp only [plotPhaseFunc1, firstDiff_ok, bind, Except.bind, pure, Except.pure, Except.ok.injEq]
  funext i
  rw [thetaOf, arccos_of_mem (by linarith [hnu i]) (by linarith [hnu i]), sum_mul_fin, fin_div _ hne]

/-- C140, the heat map, refuted: for every increasing grid of nu in [0, 1] (as the default one) and of azimuths, whatever the density, no
pixel is positive, and every pixel where the density is positive is drawn (and saved) as a negative number. -/
theorem C140_heatmap_refuted {n m : ℕ} (pdf : ℝ → ℝ → ℝ) (nu : Fin (n + 2) → ℝ) (phi : Fin (m + 2) → ℝ)
    (hnu : ∀ i, 0 ≤ nu i ∧ nu i ≤ 1) (hinc : nu 0 < nu 1) (hphi : phi 0 < phi 1) (h0 : ∀ i j, 0 ≤ pdf (nu i) (phi j))
    (h1 : ∃ i j, 0 < pdf (nu i) (phi j)) :
    ∃ y : Fin (m + 2) → Fin (n + 2) → ℝ, plotPhaseFunc2 pdf nu phi = .ok (fun a b => fin (y a b)) ∧
      ∀ a b, y a b ≤ 0 ∧ (0 < pdf (nu b) (phi a) → y a b < 0) := by
  obtain ⟨i0, j0, hpos⟩ := h1
  have hθ : Real.arccos (2 * nu 1 - 1) - Real.arccos (2 * nu 0 - 1) < 0 := sub_neg.mpr
    (Real.strictAntiOn_arccos ⟨by linarith [hnu 0], by linarith [hnu 0]⟩ ⟨by linarith [hnu 1], by linarith [hnu 1]⟩ (by linarith))
  have hs : 0 < ∑ a, ∑ b, pdf (nu b) (phi a) := Finset.sum_pos' (fun a _ => Finset.sum_nonneg fun b _ => h0 b a)
    ⟨j0, Finset.mem_univ _, Finset.sum_pos' (fun b _ => h0 b j0) ⟨i0, Finset.mem_univ _, hpos⟩⟩
  set S : ℝ := (∑ a, ∑ b, pdf (nu b) (phi a)) * (phi 1 - phi 0) *
    (Real.arccos (2 * nu 1 - 1) - Real.arccos (2 * nu 0 - 1)) with hS
  have hneg : S < 0 := mul_neg_of_pos_of_neg (mul_pos hs (sub_pos.mpr hphi)) hθ
  refine ⟨fun a b => pdf (nu b) (phi a) / S, ?_, fun a b => ⟨div_nonpos_of_nonneg_of_nonpos (h0 _ _) hneg.le,
    fun h => div_neg_of_pos_of_neg h hneg⟩⟩
  simp only [plotPhaseFunc2, firstDiff_ok, bind, Except.bind, pure, Except.pure, Except.ok.injEq]
  funext a b
  simp only [nu_back (hnu _), fin_mul, sum_fin]
  rw [← fin_div _ hneg.ne]
  congr 2
  rw [hS, Finset.sum_mul, Finset.sum_mul]
  refine Finset.sum_congr rfl fun a _ => ?_
  rw [Finset.sum_mul, Finset.sum_mul]

/-- C140, the heat map, what holds: with nu in decreasing order (increasing polar angle) the pixels are non-negative, in proportion to
the density, and their sum times the first spacings of the two axes is 1. -/
theorem C140_heatmap_partial {n m : ℕ} (pdf : ℝ → ℝ → ℝ) (nu : Fin (n + 2) → ℝ) (phi : Fin (m + 2) → ℝ)
    (hnu : ∀ i, 0 ≤ nu i ∧ nu i ≤ 1) (hdec : nu 1 < nu 0) (hphi : phi 0 < phi 1) (h0 : ∀ i j, 0 ≤ pdf (nu i) (phi j))
    (h1 : ∃ i j, 0 < pdf (nu i) (phi j)) :
    ∃ y : Fin (m + 2) → Fin (n + 2) → ℝ, plotPhaseFunc2 pdf nu phi = .ok (fun a b => fin (y a b)) ∧
      Normalised ((phi 1 - phi 0) * (Real.arccos (2 * nu 1 - 1) - Real.arccos (2 * nu 0 - 1)))
        (fun p : Fin (m + 2) × Fin (n + 2) => pdf (nu p.2) (phi p.1)) (fun p => y p.1 p.2) := by
  obtain ⟨i0, j0, hpos⟩ := h1
  have hθ : 0 < Real.arccos (2 * nu 1 - 1) - Real.arccos (2 * nu 0 - 1) := sub_pos.mpr
    (Real.strictAntiOn_arccos ⟨by linarith [hnu 1], by linarith [hnu 1]⟩ ⟨by linarith [hnu 0], by linarith [hnu 0]⟩ (by linarith))
  obtain ⟨hN, hne⟩ := normalise (f := fun p : Fin (m + 2) × Fin (n + 2) => pdf (nu p.2) (phi p.1))
    (mul_pos (sub_pos.mpr hphi) hθ) (fun p => h0 _ _) ⟨(j0, i0), hpos⟩
  refine ⟨fun a b => pdf (nu b) (phi a) / ((∑ p : Fin (m + 2) × Fin (n + 2), pdf (nu p.2) (phi p.1)) *
    ((phi 1 - phi 0) * (Real.arccos (2 * nu 1 - 1) - Real.arccos (2 * nu 0 - 1)))), ?_, hN⟩
  simp only [plotPhaseFunc2, firstDiff_ok, bind, Except.bind, pure, Except.pure, Except.ok.injEq]
  funext a b
  simp only [nu_back (hnu _), fin_mul, sum_fin]
  rw [← fin_div _ hne]
  congr 2
  rw [Fintype.sum_prod_type, Finset.sum_mul]
  refine Finset.sum_congr rfl fun a _ => ?_
  rw [Finset.sum_mul]
  exact Finset.sum_congr rfl fun b _ => by ring

/-- C140, `plot_dist_1d`: on an increasing grid the curve drawn is a density, in proportion to the values given. -/
theorem C140_dist_plot_partial {n : ℕ} (range vals : Fin (n + 2) → ℝ) (hinc : range 0 < range 1) (h0 : ∀ i, 0 ≤ vals i)
    (h1 : ∃ i, 0 < vals i) :
    ∃ y : Fin (n + 2) → ℝ, plotDist1d range vals = .ok (fun i => fin (y i)) ∧ Normalised (range 1 - range 0) vals y := by
  obtain ⟨hN, hne⟩ := normalise (sub_pos.mpr hinc) h0 h1
  refine ⟨_, ?_, hN⟩
  simp only [plotDist1d, firstDiff_ok, bind, Except.bind, pure, Except.pure, Except.ok.injEq]
  funext i
  rw [sum_mul_fin, fin_div _ hne]

/-- C140, refuted for `calc_pdf(plot=True)`: when no trajectory leaves the sphere, the call that returns NaN with a warning without
`plot` fails with `plot`, because there is no density to draw. -/
theorem C140_plot_without_exits_refuted {nt n : ℕ} (kde : List ℝ × List ℝ → ℝ → ℝ) (k : ℕ → Fin nt → ℝ) (z : Fin nt → ℝ) (r : ℝ)
    (refl trans : Fin nt → ℝ) (ri ti : Fin nt → ℕ) (nu_range : Fin n → ℝ) (hno : ∀ j, ri j = 0 ∧ ti j = 0) :
    (Bulk.calcPdf kde none z r refl trans ri ti false).1 = .ok none ∧
      calcPdfPlot kde none z r refl trans ri ti nu_range = .error .unboundLocalError ∧
    (Bulk.calcPdf kde (some k) z r refl trans ri ti false).1 = .ok none ∧
      calcPdfPlot kde (some k) z r refl trans ri ti nu_range = .error .unboundLocalError := by
  have hz : zKept z refl trans ri ti = [] := by
    simp [zKept, zOf, hno, transScat, ind]
  have hk : kzKept k ri ti = [] := by
    simp [kzKept, kzOf, hno, transScat]
  refine ⟨?_, ?_, ?_, ?_⟩ <;>
    simp [Bulk.calcPdf, calcPdfPlot, pdfDataZ, pdfDataKz, kdeData, hz, hk, bind, Except.bind, pure, Except.pure]

/-- C140, the map of exit points, what holds: an exit at a point of the sphere is drawn at its polar angle and at an azimuth in
(0, 2π]; the point of the sphere with these angles is the exit turned half way round the z axis (the convention of `calc_pdf`). -/
theorem C140_exit_point_partial {x y z r : ℝ} (hr : 0 < r) (hs : x ^ 2 + y ^ 2 + z ^ 2 = r ^ 2) :
    ∃ θ φ : ℝ, exitPoint2d x y z r = (fin θ, fin φ) ∧ 0 ≤ θ ∧ θ ≤ Real.pi ∧ 0 < φ ∧ φ ≤ 2 * Real.pi ∧
      z = r * Real.cos θ ∧ -x = r * Real.sin θ * Real.cos φ ∧ -y = r * Real.sin θ * Real.sin φ := by
  have hz : -1 ≤ z / r ∧ z / r ≤ 1 := by
    have : |z| ≤ r := abs_le_of_sq_le_sq (by nlinarith [sq_nonneg x, sq_nonneg y]) hr.le
    obtain ⟨h1, h2⟩ := abs_le.mp this
    exact ⟨by rw [le_div_iff₀ hr]; linarith, by rw [div_le_iff₀ hr]; linarith⟩
  have hsin : r * Real.sin (Real.arccos (z / r)) = ‖(⟨x, y⟩ : ℂ)‖ := by
    rw [Real.sin_arccos, Complex.norm_def, Complex.normSq_mk]
    have : x * x + y * y = r ^ 2 * (1 - (z / r) ^ 2) := by field_simp; linarith
    rw [this, Real.sqrt_mul (sq_nonneg r), Real.sqrt_sq hr.le]
  have hc := Complex.norm_mul_cos_arg (⟨x, y⟩ : ℂ)
  have hsn := Complex.norm_mul_sin_arg (⟨x, y⟩ : ℂ)
  refine ⟨Real.arccos (z / r), Complex.arg ⟨x, y⟩ + Real.pi, ?_, Real.arccos_nonneg _, Real.arccos_le_pi _, ?_, ?_, ?_, ?_, ?_⟩
  · rw [exitPoint2d, fin_div _ hr.ne', arccos_of_mem hz.1 hz.2]
  · linarith [Complex.neg_pi_lt_arg (⟨x, y⟩ : ℂ)]
  · linarith [Complex.arg_le_pi (⟨x, y⟩ : ℂ)]
  · rw [Real.cos_arccos hz.1 hz.2]; field_simp
  · rw [hsin, Real.cos_add_pi, mul_neg, hc]
  · rw [hsin, Real.sin_add_pi, mul_neg, hsn]

/-- C140, refuted: no exit off the z axis is drawn at its own azimuth, so the angles under which exits are drawn (and from which
`calc_pdf` estimates their density) do not lead back to them.  Two photons leave a sphere of radius 1 at opposite points of the
equator, each straight outwards; `calc_directions` for the angles drawn for the first one returns the direction of the second. -/
theorem C140_exit_azimuth_refuted :
    (∀ x y z r : ℝ, (x ≠ 0 ∨ y ≠ 0) → ∀ θ φ : ℝ, exitPoint2d x y z r = (fin θ, fin φ) →
      ¬ ∃ s : ℝ, 0 ≤ s ∧ x = s * Real.cos φ ∧ y = s * Real.sin φ) ∧
    ∃ θ φ : ℝ, exitPoint2d 1 0 0 1 = (fin θ, fin φ) ∧
      calcDirections θ φ (fun j => if j = 0 then ⟨1, 0, 0⟩ else ⟨-1, 0, 0⟩) 2 (fun j => if j = 0 then ⟨1, 0, 0⟩ else ⟨-1, 0, 0⟩) 1 =
        .ok ⟨-1, 0, 0⟩ := by
  constructor
  · rintro x y z r hxy θ φ h ⟨s, hs, hx, hy⟩
    simp only [exitPoint2d, Prod.mk.injEq, fin_inj] at h
    have hc := Complex.norm_mul_cos_arg (⟨x, y⟩ : ℂ)
    have hsn := Complex.norm_mul_sin_arg (⟨x, y⟩ : ℂ)
    rw [← h.2, Real.cos_add_pi] at hx
    rw [← h.2, Real.sin_add_pi] at hy
    simp only at hc hsn
    set c := Real.cos (Complex.arg ⟨x, y⟩)
    set n := Real.sin (Complex.arg ⟨x, y⟩)
    have hN := norm_nonneg (⟨x, y⟩ : ℂ)
    set N := ‖(⟨x, y⟩ : ℂ)‖
    have e1 : (N + s) * c = 0 := by nlinarith
    have e2 : (N + s) * n = 0 := by nlinarith
    have hu : c ^ 2 + n ^ 2 = 1 := by rw [add_comm]; exact Real.sin_sq_add_cos_sq _
    have h3 : N + s = 0 := by
      have : (N + s) ^ 2 = ((N + s) * c) ^ 2 + ((N + s) * n) ^ 2 := by rw [mul_pow, mul_pow, ← mul_add, hu, mul_one]
      rw [e1, e2] at this
      simpa using this
    have : s = 0 := by linarith
    subst this
    rcases hxy with h | h
    · exact h (by linarith)
    · exact h (by linarith)
  · refine ⟨Real.pi / 2, Real.pi, ?_, ?_⟩
    · have : (⟨1, 0⟩ : ℂ) = 1 := rfl
      rw [exitPoint2d, fin_div _ one_ne_zero, arccos_of_mem (by norm_num) (by norm_num), this]
      simp
    · obtain ⟨j, hj, h, hmin⟩ := (C82_nearest_direction (Real.pi / 2) Real.pi (fun j => if j = 0 then ⟨1, 0, 0⟩ else ⟨-1, 0, 0⟩) 2
        (fun j => if j = 0 then ⟨1, 0, 0⟩ else ⟨-1, 0, 0⟩) 1).2 two_pos
      rw [h]
      rcases (show j = 0 ∨ j = 1 by omega) with rfl | rfl
      · have := hmin 1 one_lt_two
        simp [V3.norm, V3.normSq, V3.dot, V3.sub, V3.smul] at this
        norm_num at this
        exact absurd this (not_le.mpr (Real.sqrt_pos.mpr (by norm_num)))
      · simp

/-- a density and grids that meet the hypotheses of the theorems above -/
example : ∃ (pdf : ℝ → ℝ → ℝ) (nu phi : Fin 2 → ℝ), (∀ i, 0 ≤ nu i ∧ nu i ≤ 1) ∧ nu 0 < nu 1 ∧ phi 0 < phi 1 ∧
    (∀ i j, 0 ≤ pdf (nu i) (phi j)) ∧ ∃ i j, 0 < pdf (nu i) (phi j) :=
  ⟨fun v _ => v, ![0, 1], ![0, 1], by simp [Fin.forall_fin_two], by simp, by simp, by simp [Fin.forall_fin_two], 1, 0, by simp⟩

/-- an exit in the direction (2, 3, 6)/7 -/
example : ∃ θ φ : ℝ, exitPoint2d 2 3 6 7 = (fin θ, fin φ) ∧ (6 : ℝ) = 7 * Real.cos θ ∧ -2 = 7 * Real.sin θ * Real.cos φ := by
  obtain ⟨θ, φ, h, -, -, -, -, hz, hx, -⟩ := C140_exit_point_partial (x := 2) (y := 3) (z := 6) (r := 7) (by norm_num) (by norm_num)
  exact ⟨θ, φ, h, hz, hx⟩

end
end Verif.Props
