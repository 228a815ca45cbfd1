import Verif.Model.Index
import Mathlib.Algebra.Order.Chebyshev
import Mathlib.Tactic.FieldSimp
import Mathlib.Tactic.Positivity
import Mathlib.Tactic.Ring
import Mathlib.Tactic.IntervalCases
import Mathlib.Topology.Order.IntermediateValue
import Mathlib.Topology.Algebra.Order.LiminfLimsup
import Mathlib.Analysis.SpecialFunctions.Pow.Real

/-!
# C49–C51: effective refractive index
-/

namespace Verif.Props
open Verif.Index Verif.XF
open Verif (XF PyErr)

/-! ### C49 -/

/-- The Maxwell-Garnett mixing rule for permittivities (squares of indices): the polarisability of the composite in the
matrix is the volume fraction times that of the inclusion. -/
def MGRule (ni nm phi r : ℝ) : Prop :=
  (r ^ 2 - nm ^ 2) / (r ^ 2 + 2 * nm ^ 2) = phi * ((ni ^ 2 - nm ^ 2) / (ni ^ 2 + 2 * nm ^ 2))

/-- the squared index in closed form -/
theorem maxwellGarnett_fin {ni nm phi : ℝ} (hi : 0 < ni) (hm : 0 < nm) (h0 : 0 ≤ phi) (h1 : phi ≤ 1) :
    ∃ r, maxwellGarnett ni nm phi = fin r ∧ 0 < r ∧
      r ^ 2 * (2 * nm ^ 2 + ni ^ 2 - phi * (ni ^ 2 - nm ^ 2)) =
        nm ^ 2 * (2 * nm ^ 2 + ni ^ 2 + 2 * phi * (ni ^ 2 - nm ^ 2)) := by
  have hd : 0 < 2 * nm ^ 2 + ni ^ 2 - phi * (ni ^ 2 - nm ^ 2) := by
    nlinarith [sq_pos_of_pos hi, sq_pos_of_pos hm, mul_nonneg h0 (sq_nonneg nm), mul_nonneg (sub_nonneg.mpr h1) (sq_nonneg ni)]
  have hn : 0 < 2 * nm ^ 2 + ni ^ 2 + 2 * phi * (ni ^ 2 - nm ^ 2) := by
    nlinarith [sq_pos_of_pos hi, sq_pos_of_pos hm, mul_nonneg h0 (sq_nonneg ni), mul_nonneg (sub_nonneg.mpr h1) (sq_nonneg nm)]
  refine ⟨nm * Real.sqrt ((2 * nm ^ 2 + ni ^ 2 + 2 * phi * (ni ^ 2 - nm ^ 2)) /
    (2 * nm ^ 2 + ni ^ 2 - phi * (ni ^ 2 - nm ^ 2))), ?_, ?_, ?_⟩
  · unfold maxwellGarnett
    rw [fin_div _ hd.ne']
    unfold XF.sqrt
    simp only
    rw [if_pos (div_pos hn hd).le, fin_mul]
  · exact mul_pos hm (Real.sqrt_pos.mpr (div_pos hn hd))
  · rw [mul_pow, Real.sq_sqrt (div_pos hn hd).le, mul_assoc, div_mul_cancel₀ _ hd.ne']

/-- C49.  For positive real indices and a volume fraction in [0,1], `n_eff(maxwell_garnett=True)` is a positive finite number
obeying the Maxwell-Garnett mixing rule; it is the matrix index for volume fraction 0, the particle index for volume fraction
1, their common value when they are equal, and always between the two indices. -/
theorem C49_maxwell_garnett {ni nm phi : ℝ} (hi : 0 < ni) (hm : 0 < nm) (h0 : 0 ≤ phi) (h1 : phi ≤ 1) :
    ∃ r, maxwellGarnett ni nm phi = fin r ∧ 0 < r ∧ MGRule ni nm phi r ∧
      (phi = 0 → r = nm) ∧ (phi = 1 → r = ni) ∧ (ni = nm → r = nm) ∧
      (nm ≤ ni → nm ≤ r ∧ r ≤ ni) ∧ (ni ≤ nm → ni ≤ r ∧ r ≤ nm) := by
  obtain ⟨r, hr, hpos, he⟩ := maxwellGarnett_fin hi hm h0 h1
  have pi := sq_pos_of_pos hi
  have pm := sq_pos_of_pos hm
  have hd : 0 < 2 * nm ^ 2 + ni ^ 2 - phi * (ni ^ 2 - nm ^ 2) := by
    nlinarith [mul_nonneg h0 (sq_nonneg nm), mul_nonneg (sub_nonneg.mpr h1) (sq_nonneg ni)]
  have sqle : ∀ {a b : ℝ}, 0 < a → 0 < b → a ^ 2 ≤ b ^ 2 → a ≤ b := fun ha hb h => by
    exact le_of_sq_le_sq h hb.le
  have e1 : (r ^ 2 - nm ^ 2) * (2 * nm ^ 2 + ni ^ 2 - phi * (ni ^ 2 - nm ^ 2)) = 3 * phi * nm ^ 2 * (ni ^ 2 - nm ^ 2) := by
    linear_combination he
  have e2 : (ni ^ 2 - r ^ 2) * (2 * nm ^ 2 + ni ^ 2 - phi * (ni ^ 2 - nm ^ 2))
      = (1 - phi) * (ni ^ 2 + 2 * nm ^ 2) * (ni ^ 2 - nm ^ 2) := by
    linear_combination -he
  refine ⟨r, hr, hpos, ?_, ?_, ?_, ?_, ?_, ?_⟩
  · unfold MGRule
    have hrr := sq_pos_of_pos hpos
    rw [← mul_div_assoc, div_eq_div_iff (by positivity) (by positivity)]
    nlinarith [he]
  · intro h; subst h
    have : r ^ 2 = nm ^ 2 := by
      have h3 : (r ^ 2 - nm ^ 2) * (2 * nm ^ 2 + ni ^ 2) = 0 := by linear_combination e1
      rcases mul_eq_zero.mp h3 with h | h
      · linarith
      · nlinarith
    exact le_antisymm (sqle hpos hm this.le) (sqle hm hpos this.ge)
  · intro h; subst h
    have : r ^ 2 = ni ^ 2 := by
      have h3 : (ni ^ 2 - r ^ 2) * (3 * nm ^ 2) = 0 := by linear_combination e2
      rcases mul_eq_zero.mp h3 with h | h
      · linarith
      · nlinarith
    exact le_antisymm (sqle hpos hi this.le) (sqle hi hpos this.ge)
  · intro h; subst h
    have : r ^ 2 = ni ^ 2 := by
      have h3 : (ni ^ 2 - r ^ 2) * (3 * ni ^ 2) = 0 := by linear_combination e2
      rcases mul_eq_zero.mp h3 with h | h
      · linarith
      · nlinarith
    exact le_antisymm (sqle hpos hi this.le) (sqle hi hpos this.ge)
  · intro h
    have hsq : 0 ≤ ni ^ 2 - nm ^ 2 := by nlinarith
    constructor
    · apply sqle hm hpos
      by_contra hc; push Not at hc
      have : (r ^ 2 - nm ^ 2) * (2 * nm ^ 2 + ni ^ 2 - phi * (ni ^ 2 - nm ^ 2)) < 0 := mul_neg_of_neg_of_pos (by linarith) hd
      have : 0 ≤ 3 * phi * nm ^ 2 * (ni ^ 2 - nm ^ 2) := by positivity
      linarith
    · apply sqle hpos hi
      by_contra hc; push Not at hc
      have : (ni ^ 2 - r ^ 2) * (2 * nm ^ 2 + ni ^ 2 - phi * (ni ^ 2 - nm ^ 2)) < 0 := mul_neg_of_neg_of_pos (by linarith) hd
      have : 0 ≤ (1 - phi) * (ni ^ 2 + 2 * nm ^ 2) * (ni ^ 2 - nm ^ 2) := by
        have := sub_nonneg.mpr h1; positivity
      linarith
  · intro h
    have hsq : 0 ≤ nm ^ 2 - ni ^ 2 := by nlinarith
    constructor
    · apply sqle hi hpos
      by_contra hc; push Not at hc
      have : 0 < (ni ^ 2 - r ^ 2) * (2 * nm ^ 2 + ni ^ 2 - phi * (ni ^ 2 - nm ^ 2)) := mul_pos (by linarith) hd
      have : 0 ≤ (1 - phi) * (ni ^ 2 + 2 * nm ^ 2) * (nm ^ 2 - ni ^ 2) := by
        have := sub_nonneg.mpr h1; positivity
      linarith
    · apply sqle hpos hm
      by_contra hc; push Not at hc
      have : 0 < (r ^ 2 - nm ^ 2) * (2 * nm ^ 2 + ni ^ 2 - phi * (ni ^ 2 - nm ^ 2)) := mul_pos (by linarith) hd
      have : 0 ≤ 3 * phi * nm ^ 2 * (nm ^ 2 - ni ^ 2) := by positivity
      linarith

/-- C49.  The effective index is strictly monotone in the volume fraction: increasing when the particle is denser than the
matrix, decreasing when it is less dense. -/
theorem C49_maxwell_garnett_monotone {ni nm p q : ℝ} (hi : 0 < ni) (hm : 0 < nm) (h0 : 0 ≤ p) (hpq : p < q) (h1 : q ≤ 1) :
    (nm < ni → maxwellGarnett ni nm p < maxwellGarnett ni nm q) ∧
    (ni < nm → maxwellGarnett ni nm q < maxwellGarnett ni nm p) := by
  obtain ⟨r, hr, rpos, re⟩ := maxwellGarnett_fin hi hm h0 (hpq.le.trans h1)
  obtain ⟨s, hs, spos, se⟩ := maxwellGarnett_fin hi hm (h0.trans hpq.le) h1
  rw [hr, hs]
  have pi := sq_pos_of_pos hi
  have pm := sq_pos_of_pos hm
  have hd : ∀ phi : ℝ, 0 ≤ phi → phi ≤ 1 → 0 < 2 * nm ^ 2 + ni ^ 2 - phi * (ni ^ 2 - nm ^ 2) := by
    intro phi h0 h1
    nlinarith [mul_nonneg h0 (sq_nonneg nm), mul_nonneg (sub_nonneg.mpr h1) (sq_nonneg ni)]
  have dp := hd p h0 (hpq.le.trans h1)
  have dq := hd q (h0.trans hpq.le) h1
  have key : (s ^ 2 - r ^ 2) * ((2 * nm ^ 2 + ni ^ 2 - p * (ni ^ 2 - nm ^ 2)) * (2 * nm ^ 2 + ni ^ 2 - q * (ni ^ 2 - nm ^ 2)))
      = 3 * nm ^ 2 * (ni ^ 2 + 2 * nm ^ 2) * (q - p) * (ni ^ 2 - nm ^ 2) := by
    linear_combination (2 * nm ^ 2 + ni ^ 2 - p * (ni ^ 2 - nm ^ 2)) * se - (2 * nm ^ 2 + ni ^ 2 - q * (ni ^ 2 - nm ^ 2)) * re
  have hqp := sub_pos.mpr hpq
  constructor
  · intro h
    rw [fin_lt]
    have hsq : 0 < ni ^ 2 - nm ^ 2 := by nlinarith
    have : 0 < (s ^ 2 - r ^ 2) * ((2 * nm ^ 2 + ni ^ 2 - p * (ni ^ 2 - nm ^ 2)) * (2 * nm ^ 2 + ni ^ 2 - q * (ni ^ 2 - nm ^ 2))) := by
      rw [key]; positivity
    have := (pos_iff_pos_of_mul_pos this).mpr (mul_pos dp dq)
    exact lt_of_pow_lt_pow_left₀ 2 spos.le (by linarith)
  · intro h
    rw [fin_lt]
    have hsq : 0 < nm ^ 2 - ni ^ 2 := by nlinarith
    have : 0 < (r ^ 2 - s ^ 2) * ((2 * nm ^ 2 + ni ^ 2 - p * (ni ^ 2 - nm ^ 2)) * (2 * nm ^ 2 + ni ^ 2 - q * (ni ^ 2 - nm ^ 2))) := by
      have : (r ^ 2 - s ^ 2) * ((2 * nm ^ 2 + ni ^ 2 - p * (ni ^ 2 - nm ^ 2)) * (2 * nm ^ 2 + ni ^ 2 - q * (ni ^ 2 - nm ^ 2)))
        = 3 * nm ^ 2 * (ni ^ 2 + 2 * nm ^ 2) * (q - p) * (nm ^ 2 - ni ^ 2) := by linear_combination -key
      rw [this]; positivity
    have := (pos_iff_pos_of_mul_pos this).mpr (mul_pos dp dq)
    exact lt_of_pow_lt_pow_left₀ 2 rpos.le (by linarith)

/-- C49, complex indices: whenever the formula's denominator does not vanish, the squared effective index obeys the
Maxwell-Garnett rule (cleared of denominators). -/
theorem C49_maxwell_garnett_complex (ni nm phi : ℂ) (hd : 2 * nm ^ 2 + ni ^ 2 - phi * (ni ^ 2 - nm ^ 2) ≠ 0) :
    (maxwellGarnettC ni nm phi ^ 2 - nm ^ 2) * (ni ^ 2 + 2 * nm ^ 2)
      = phi * (ni ^ 2 - nm ^ 2) * (maxwellGarnettC ni nm phi ^ 2 + 2 * nm ^ 2) := by
  have hsq : ∀ z : ℂ, (z ^ (1 / 2 : ℂ)) ^ 2 = z := by
    intro z
    rw [← Complex.cpow_nat_mul]
    norm_num
  unfold maxwellGarnettC
  rw [mul_pow, hsq]
  generalize hD : 2 * nm ^ 2 + ni ^ 2 - phi * (ni ^ 2 - nm ^ 2) = D at *
  have h1 : nm ^ 2 * ((2 * nm ^ 2 + ni ^ 2 + 2 * phi * (ni ^ 2 - nm ^ 2)) / D) * D
      = nm ^ 2 * (2 * nm ^ 2 + ni ^ 2 + 2 * phi * (ni ^ 2 - nm ^ 2)) := by
    rw [mul_assoc, div_mul_cancel₀ _ hd]
  generalize nm ^ 2 * ((2 * nm ^ 2 + ni ^ 2 + 2 * phi * (ni ^ 2 - nm ^ 2)) / D) = X at *
  rw [← hD] at h1
  linear_combination h1

example : (0 : ℝ) < 1.59 ∧ (0 : ℝ) < 1.33 ∧ (0 : ℝ) ≤ 0.55 ∧ (0.55 : ℝ) ≤ 1 := by norm_num

/-! ### C50 -/

/-- real Bruggeman residual of the components `(volume fraction, index)` at the trial index `m` -/
noncomputable def residual (comps : List (ℝ × ℝ)) (m : ℝ) : ℝ :=
  (comps.map fun c => c.1 * (c.2 ^ 2 - m ^ 2) / (c.2 ^ 2 + 2 * m ^ 2)).sum

/-- real components as complex ones -/
noncomputable def toComplex (comps : List (ℝ × ℝ)) : List (ℝ × ℂ) := comps.map fun c => (c.1, (c.2 : ℂ))

theorem bruggemanSum_real (comps : List (ℝ × ℝ)) (m : ℝ) : bruggemanSum (toComplex comps) m = (residual comps m : ℂ) := by
  unfold bruggemanSum residual toComplex
  induction comps with
  | nil => simp
  | cons c l ih =>
    simp only [List.map_cons, List.sum_cons, Complex.ofReal_add] at ih ⊢
    rw [ih]
    push_cast
    rfl

/-- C50.  What `fsolve` is asked to solve, for real indices and a real trial index, is the Bruggeman equation
`Σ vf (n² - m²)/(n² + 2m²) = 0`, summed over the particle layers and the matrix, whose volume fraction is the remainder. -/
theorem C50_residual_is_bruggeman (np : List ℝ) (nm : ℝ) (vf : List ℝ) (m : ℝ) (hl : np.length = vf.length) :
    sumBg (components (np.map Complex.ofReal) nm vf) (m, 0) =
      (residual (vf.zip np) m + (1 - vf.sum) * (nm ^ 2 - m ^ 2) / (nm ^ 2 + 2 * m ^ 2), 0) := by
  have hz : components (np.map Complex.ofReal) nm vf = toComplex (vf.zip np ++ [(1 - vf.sum, nm)]) := by
    unfold components toComplex
    rw [List.zip_append (by simp [hl])]
    simp only [List.map_append, List.map_cons, List.map_nil]
    congr 1
    rw [List.zip_map_right]
    rfl
  rw [hz]
  unfold sumBg
  simp only [Complex.ofReal_zero, zero_mul, add_zero]
  rw [bruggemanSum_real]
  simp only [Complex.ofReal_re, Complex.ofReal_im]
  unfold residual
  simp [List.map_append, List.sum_append]

theorem term_sign {v n m : ℝ} (hv : 0 ≤ v) (hn : 0 < n) (hm : 0 < m) :
    (m < n → 0 ≤ v * (n ^ 2 - m ^ 2) / (n ^ 2 + 2 * m ^ 2) ∧ (0 < v → 0 < v * (n ^ 2 - m ^ 2) / (n ^ 2 + 2 * m ^ 2))) ∧
    (n < m → v * (n ^ 2 - m ^ 2) / (n ^ 2 + 2 * m ^ 2) ≤ 0 ∧ (0 < v → v * (n ^ 2 - m ^ 2) / (n ^ 2 + 2 * m ^ 2) < 0)) := by
  have hd : 0 < n ^ 2 + 2 * m ^ 2 := by positivity
  constructor
  · intro h
    have h2 : 0 < n ^ 2 - m ^ 2 := by nlinarith
    exact ⟨by positivity, fun hv' => by positivity⟩
  · intro h
    have h2 : n ^ 2 - m ^ 2 < 0 := by nlinarith
    exact ⟨div_nonpos_of_nonpos_of_nonneg (mul_nonpos_of_nonneg_of_nonpos hv h2.le) hd.le,
      fun hv' => div_neg_of_neg_of_pos (mul_neg_of_pos_of_neg hv' h2) hd⟩

theorem sum_pos_of {f : ℝ × ℝ → ℝ} (l : List (ℝ × ℝ)) (h : ∀ c ∈ l, 0 ≤ f c) (hex : ∃ c ∈ l, 0 < f c) :
    0 < (l.map f).sum := by
  induction l with
  | nil => obtain ⟨c, hc, _⟩ := hex; cases hc
  | cons a l ih =>
    simp only [List.map_cons, List.sum_cons]
    have ha := h a (by simp)
    have hl : 0 ≤ (l.map f).sum := List.sum_nonneg (by
      intro x hx; obtain ⟨c, hc, rfl⟩ := List.mem_map.mp hx; exact h c (by simp [hc]))
    obtain ⟨c, hc, hpos⟩ := hex
    rcases List.mem_cons.mp hc with rfl | hc
    · linarith
    · have := ih (fun c hc => h c (by simp [hc])) ⟨c, hc, hpos⟩; linarith

theorem sum_neg_of {f : ℝ × ℝ → ℝ} (l : List (ℝ × ℝ)) (h : ∀ c ∈ l, f c ≤ 0) (hex : ∃ c ∈ l, f c < 0) :
    (l.map f).sum < 0 := by
  have := sum_pos_of (f := fun c => - f c) l (fun c hc => by simpa using h c hc)
    (by obtain ⟨c, hc, hh⟩ := hex; exact ⟨c, hc, by simpa using hh⟩)
  have h2 : (l.map fun c => - f c).sum = - (l.map f).sum := by
    clear this h hex
    induction l with
    | nil => simp
    | cons a l ih => simp only [List.map_cons, List.sum_cons, ih]; ring
  linarith

/-- non-negative volume fractions, some of them positive, and positive indices -/
def Physical (comps : List (ℝ × ℝ)) : Prop := (∀ c ∈ comps, 0 ≤ c.1 ∧ 0 < c.2) ∧ ∃ c ∈ comps, 0 < c.1

/-- C50.  Every positive real solution of the Bruggeman equation lies between the smallest and the largest index of the
components. -/
theorem C50_bruggeman_between (comps : List (ℝ × ℝ)) (hp : Physical comps) {lo hi m : ℝ}
    (hlo : ∀ c ∈ comps, lo ≤ c.2) (hhi : ∀ c ∈ comps, c.2 ≤ hi) (hm : 0 < m) (hr : residual comps m = 0) :
    lo ≤ m ∧ m ≤ hi := by
  constructor
  · by_contra hc; push Not at hc
    have : 0 < residual comps m := sum_pos_of comps
      (fun c h => ((term_sign (hp.1 c h).1 (hp.1 c h).2 hm).1 (lt_of_lt_of_le hc (hlo c h))).1)
      (by obtain ⟨c, h, hv⟩ := hp.2
          exact ⟨c, h, ((term_sign (hp.1 c h).1 (hp.1 c h).2 hm).1 (lt_of_lt_of_le hc (hlo c h))).2 hv⟩)
    linarith
  · by_contra hc; push Not at hc
    have : residual comps m < 0 := sum_neg_of comps
      (fun c h => ((term_sign (hp.1 c h).1 (hp.1 c h).2 hm).2 (lt_of_le_of_lt (hhi c h) hc)).1)
      (by obtain ⟨c, h, hv⟩ := hp.2
          exact ⟨c, h, ((term_sign (hp.1 c h).1 (hp.1 c h).2 hm).2 (lt_of_le_of_lt (hhi c h) hc)).2 hv⟩)
    linarith

theorem residual_strictAnti (comps : List (ℝ × ℝ)) (hp : Physical comps) {a b : ℝ} (ha : 0 < a) (hab : a < b) :
    residual comps b < residual comps a := by
  have hdiff : residual comps a - residual comps b =
      (comps.map fun c => c.1 * (c.2 ^ 2 - a ^ 2) / (c.2 ^ 2 + 2 * a ^ 2) - c.1 * (c.2 ^ 2 - b ^ 2) / (c.2 ^ 2 + 2 * b ^ 2)).sum := by
    unfold residual
    clear hp
    induction comps with
    | nil => simp
    | cons c l ih => simp only [List.map_cons, List.sum_cons] at ih ⊢; rw [← ih]; ring
  have hb : 0 < b := ha.trans hab
  have hpos : ∀ c : ℝ × ℝ, 0 < c.2 →
      c.1 * (c.2 ^ 2 - a ^ 2) / (c.2 ^ 2 + 2 * a ^ 2) - c.1 * (c.2 ^ 2 - b ^ 2) / (c.2 ^ 2 + 2 * b ^ 2)
      = c.1 * (3 * c.2 ^ 2 * (b ^ 2 - a ^ 2) / ((c.2 ^ 2 + 2 * a ^ 2) * (c.2 ^ 2 + 2 * b ^ 2))) := by
    intro c hc
    field_simp
    ring
  have hf : ∀ c : ℝ × ℝ, 0 < c.2 → 0 < 3 * c.2 ^ 2 * (b ^ 2 - a ^ 2) / ((c.2 ^ 2 + 2 * a ^ 2) * (c.2 ^ 2 + 2 * b ^ 2)) := by
    intro c hc
    have : 0 < b ^ 2 - a ^ 2 := by nlinarith
    positivity
  have := sum_pos_of (f := fun c => c.1 * (c.2 ^ 2 - a ^ 2) / (c.2 ^ 2 + 2 * a ^ 2) - c.1 * (c.2 ^ 2 - b ^ 2) / (c.2 ^ 2 + 2 * b ^ 2)) comps
    (fun c h => by
      simp only [hpos c (hp.1 c h).2]
      exact mul_nonneg (hp.1 c h).1 (hf c (hp.1 c h).2).le)
    (by obtain ⟨c, h, hv⟩ := hp.2
        refine ⟨c, h, ?_⟩
        simp only [hpos c (hp.1 c h).2]
        exact mul_pos hv (hf c (hp.1 c h).2))
  linarith

/-- C50.  The Bruggeman equation has at most one positive real solution: whenever the solver converges to a positive real root,
the result does not depend on the initial guess. -/
theorem C50_bruggeman_unique (comps : List (ℝ × ℝ)) (hp : Physical comps) {a b : ℝ} (ha : 0 < a) (hb : 0 < b)
    (hra : residual comps a = 0) (hrb : residual comps b = 0) : a = b := by
  rcases lt_trichotomy a b with h | h | h
  · have := residual_strictAnti comps hp ha h; linarith
  · exact h
  · have := residual_strictAnti comps hp hb h; linarith

theorem residual_continuousOn (comps : List (ℝ × ℝ)) (hp : ∀ c ∈ comps, 0 < c.2) : Continuous (residual comps) := by
  unfold residual
  induction comps with
  | nil => simpa using continuous_const
  | cons c l ih =>
    simp only [List.map_cons, List.sum_cons]
    have hc := hp c (by simp)
    apply Continuous.add _ (ih fun c h => hp c (by simp [h]))
    apply Continuous.div (by fun_prop) (by fun_prop)
    intro x; positivity

/-- C50.  A positive real solution exists. -/
theorem C50_bruggeman_exists (comps : List (ℝ × ℝ)) (hp : Physical comps) : ∃ m, 0 < m ∧ residual comps m = 0 := by
  -- bounds on the indices
  have hbd : ∀ l : List (ℝ × ℝ), (∀ c ∈ l, 0 < c.2) → ∃ lo hi : ℝ, 0 < lo ∧ lo ≤ hi ∧ ∀ c ∈ l, lo ≤ c.2 ∧ c.2 ≤ hi := by
    intro l
    induction l with
    | nil => intro _; exact ⟨1, 1, by norm_num, le_refl _, by intro c hc; cases hc⟩
    | cons a l ih =>
      intro h
      obtain ⟨lo, hi, h1, h2, h3⟩ := ih fun c hc => h c (by simp [hc])
      refine ⟨min lo a.2, max hi a.2, lt_min h1 (h a (by simp)), (min_le_right _ _).trans (le_max_right _ _), ?_⟩
      intro c hc
      rcases List.mem_cons.mp hc with rfl | hc
      · exact ⟨min_le_right _ _, le_max_right _ _⟩
      · exact ⟨(min_le_left _ _).trans (h3 c hc).1, (h3 c hc).2.trans (le_max_left _ _)⟩
  obtain ⟨lo, hi, h1, h2, h3⟩ := hbd comps fun c h => (hp.1 c h).2
  have hneg : residual comps (hi + 1) ≤ 0 := le_of_lt (sum_neg_of comps
      (fun c h => ((term_sign (hp.1 c h).1 (hp.1 c h).2 (by linarith)).2 (by linarith [(h3 c h).2])).1)
      (by obtain ⟨c, h, hv⟩ := hp.2
          exact ⟨c, h, ((term_sign (hp.1 c h).1 (hp.1 c h).2 (by linarith)).2 (by linarith [(h3 c h).2])).2 hv⟩))
  have hpos : 0 ≤ residual comps (lo / 2) := le_of_lt (sum_pos_of comps
      (fun c h => ((term_sign (hp.1 c h).1 (hp.1 c h).2 (by linarith)).1 (by linarith [(h3 c h).1])).1)
      (by obtain ⟨c, h, hv⟩ := hp.2
          exact ⟨c, h, ((term_sign (hp.1 c h).1 (hp.1 c h).2 (by linarith)).1 (by linarith [(h3 c h).1])).2 hv⟩))
  have hc := (residual_continuousOn comps fun c h => (hp.1 c h).2).continuousOn (s := Set.Icc (lo / 2) (hi + 1))
  obtain ⟨m, hm, hm'⟩ := intermediate_value_Icc' (by linarith) hc ⟨hneg, hpos⟩
  exact ⟨m, by linarith [hm.1], hm'⟩

/-- C50.  Special cases of the solution: the common index when all indices are equal, and the matrix index when the particle
volume fractions are all 0. -/
theorem C50_bruggeman_special (np : List ℝ) (nm : ℝ) (vf : List ℝ) (m : ℝ) (hl : np.length = vf.length) (hm : 0 < m)
    (hnm : 0 < nm)
    (hroot : sumBg (components (np.map Complex.ofReal) nm vf) (m, 0) = (0, 0)) :
    ((∀ v ∈ vf, v = 0) → m = nm) ∧
    ((∀ x ∈ np, x = nm) → (∀ v ∈ vf, 0 ≤ v) → vf.sum ≤ 1 → m = nm) := by
  rw [C50_residual_is_bruggeman np nm vf m hl] at hroot
  have h0 := (Prod.mk.inj hroot).1
  have hfin : ∀ v : ℝ, v ≠ 0 → v * (nm ^ 2 - m ^ 2) / (nm ^ 2 + 2 * m ^ 2) = 0 → m = nm := by
    intro v hv h
    have hd : nm ^ 2 + 2 * m ^ 2 ≠ 0 := by positivity
    rcases div_eq_zero_iff.mp h with h | h
    · rcases mul_eq_zero.mp h with h | h
      · exact absurd h hv
      · have : m ^ 2 = nm ^ 2 := by linarith
        exact (pow_left_inj₀ hm.le hnm.le (by norm_num)).mp this
    · exact absurd h hd
  constructor
  · intro hv
    have hz : residual (vf.zip np) m = 0 := by
      unfold residual
      apply List.sum_eq_zero
      intro x hx
      obtain ⟨c, hc, rfl⟩ := List.mem_map.mp hx
      rw [hv c.1 (List.of_mem_zip hc).1]; simp
    have hs : vf.sum = 0 := List.sum_eq_zero hv
    rw [hz, hs] at h0
    exact hfin (1 - 0) (by norm_num) (by linarith)
  · intro hn hv hs
    have hz : ∀ (vs xs : List ℝ), xs.length = vs.length → (∀ x ∈ xs, x = nm) →
        residual (vs.zip xs) m = vs.sum * ((nm ^ 2 - m ^ 2) / (nm ^ 2 + 2 * m ^ 2)) := by
      intro vs
      induction vs with
      | nil => intro xs _ _; simp [residual]
      | cons v vs ih =>
        intro xs hl hx
        cases xs with
        | nil => simp at hl
        | cons x xs =>
          have := ih xs (by simpa using hl) (fun y hy => hx y (by simp [hy]))
          unfold residual at this ⊢
          simp only [List.zip_cons_cons, List.map_cons, List.sum_cons]
          rw [this, hx x (by simp)]
          ring
    rw [hz vf np hl hn] at h0
    exact hfin 1 one_ne_zero (by rw [← h0]; ring)

example : Physical [((0.5 : ℝ), (1.59 : ℝ)), (0.5, 1.33)] := by
  refine ⟨?_, (0.5, 1.59), by simp, by norm_num⟩
  intro c hc
  rcases List.mem_cons.mp hc with rfl | hc
  · norm_num
  · rcases List.mem_cons.mp hc with rfl | hc
    · norm_num
    · cases hc

/-! ### C51 -/

/-- C51.  `n_eff` (Bruggeman) raises a ValueError exactly when the numbers of indices and volume fractions differ or the solver
returns a negative imaginary part; otherwise it returns what the solver found, a number with non-negative imaginary part. -/
theorem C51_n_eff_validation (fsolve : (ℝ × ℝ → ℝ × ℝ) → ℝ × ℝ → ℝ × ℝ) (np : List ℂ) (nm : ℂ) (vf : List ℝ) :
    (np.length ≠ vf.length → nEffBruggeman fsolve np nm vf = .error .valueError) ∧
    (np.length = vf.length →
      let r := fsolve (sumBg (components np nm vf)) (1.5, 0)
      (r.2 < 0 → nEffBruggeman fsolve np nm vf = .error .valueError) ∧
      (0 ≤ r.2 → ∃ z : ℂ, nEffBruggeman fsolve np nm vf = .ok z ∧ z.re = r.1 ∧ z.im = r.2)) := by
  constructor
  · intro h; unfold nEffBruggeman; rw [if_pos h]
  · intro h
    refine ⟨fun hr => ?_, fun hr => ?_⟩
    · unfold nEffBruggeman
      rw [if_neg (by simp [h])]
      simp only
      rw [if_neg hr.ne, if_pos hr]
    · unfold nEffBruggeman
      rw [if_neg (by simp [h])]
      simp only
      by_cases h0 : (fsolve (sumBg (components np nm vf)) (1.5, 0)).2 = 0
      · rw [if_pos h0]
        exact ⟨_, rfl, by simp, by simp [h0]⟩
      · rw [if_neg h0, if_neg (not_lt.mpr hr)]
        exact ⟨_, rfl, by simp, by simp⟩

/-- C51.  With `maxwell_garnett=True`, different numbers of particle and matrix indices (a layered particle in one matrix) are
rejected with a ValueError; equal numbers are accepted, one effective index each. -/
theorem C51_maxwell_garnett_lengths (np nm : List ℂ) (phi : ℂ) :
    (np.length ≠ nm.length → nEffMaxwellGarnett np nm phi = .error .valueError) ∧
    (np.length = nm.length → ∃ l, nEffMaxwellGarnett np nm phi = .ok l ∧ l.length = np.length) := by
  constructor
  · intro h; unfold nEffMaxwellGarnett; rw [if_pos h]
  · intro h
    refine ⟨_, by unfold nEffMaxwellGarnett; rw [if_neg (by simp [h])], by simp [h]⟩

/-- C50/C51 combined, for real positive indices: if the solver stops at a positive real root, `n_eff` returns the one positive
solution of the Bruggeman equation, which lies between the smallest and the largest index. -/
theorem C50_n_eff_bruggeman (fsolve : (ℝ × ℝ → ℝ × ℝ) → ℝ × ℝ → ℝ × ℝ) (np : List ℝ) (nm : ℝ) (vf : List ℝ)
    (hl : np.length = vf.length) (hn : ∀ x ∈ np, 0 < x) (hnm : 0 < nm) (hv : ∀ v ∈ vf, 0 ≤ v) (hs : vf.sum < 1)
    {lo hi : ℝ} (hlo : lo ≤ nm ∧ ∀ x ∈ np, lo ≤ x) (hhi : nm ≤ hi ∧ ∀ x ∈ np, x ≤ hi)
    (m : ℝ) (hm : 0 < m)
    (hroot : sumBg (components (np.map Complex.ofReal) nm vf) (m, 0) = 0)
    (hreal : fsolve (sumBg (components (np.map Complex.ofReal) nm vf)) (1.5, 0) = (m, 0)) :
    nEffBruggeman fsolve (np.map Complex.ofReal) nm vf = .ok (m : ℂ) ∧ lo ≤ m ∧ m ≤ hi ∧
      ∀ m', 0 < m' → sumBg (components (np.map Complex.ofReal) nm vf) (m', 0) = 0 → m' = m := by
  have hres : ∀ x, sumBg (components (np.map Complex.ofReal) nm vf) (x, 0) = 0 →
      residual (vf.zip np ++ [(1 - vf.sum, nm)]) x = 0 := by
    intro x hx
    rw [C50_residual_is_bruggeman np nm vf x hl] at hx
    have := (Prod.mk.inj hx).1
    unfold residual at this ⊢
    simpa [List.map_append, List.sum_append] using this
  have hp : Physical (vf.zip np ++ [(1 - vf.sum, nm)]) := by
    refine ⟨?_, (1 - vf.sum, nm), by simp, by simpa using hs⟩
    intro c hc
    rcases List.mem_append.mp hc with hc | hc
    · exact ⟨hv _ (List.of_mem_zip hc).1, hn _ (List.of_mem_zip hc).2⟩
    · rw [List.mem_singleton] at hc; subst hc; exact ⟨by simp; linarith, hnm⟩
  have hb := C50_bruggeman_between _ hp (lo := lo) (hi := hi)
    (by intro c hc
        rcases List.mem_append.mp hc with hc | hc
        · exact hlo.2 _ (List.of_mem_zip hc).2
        · rw [List.mem_singleton] at hc; subst hc; exact hlo.1)
    (by intro c hc
        rcases List.mem_append.mp hc with hc | hc
        · exact hhi.2 _ (List.of_mem_zip hc).2
        · rw [List.mem_singleton] at hc; subst hc; exact hhi.1) hm (hres m hroot)
  refine ⟨?_, hb.1, hb.2, fun m' hm' hr' => C50_bruggeman_unique _ hp hm' hm (hres m' hr') (hres m hroot)⟩
  unfold nEffBruggeman
  rw [if_neg (by simp [hl])]
  simp only [hreal, if_true]

/-- the hypotheses of `C50_n_eff_bruggeman` can be met for two different indices: a root exists -/
example : ∃ m : ℝ, 0 < m ∧ sumBg (components ([(1.59 : ℝ)].map Complex.ofReal) (1.33 : ℝ) [0.5]) (m, 0) = 0 := by
  obtain ⟨m, hm, hr⟩ := C50_bruggeman_exists [((0.5 : ℝ), (1.59 : ℝ)), (1 - 0.5, 1.33)] (by
    refine ⟨?_, (0.5, 1.59), by simp, by norm_num⟩
    intro c hc
    rcases List.mem_cons.mp hc with rfl | hc
    · norm_num
    · rcases List.mem_cons.mp hc with rfl | hc
      · norm_num
      · cases hc)
  refine ⟨m, hm, ?_⟩
  rw [C50_residual_is_bruggeman _ _ _ _ (by simp)]
  unfold residual at hr ⊢
  simp only [List.map_cons, List.map_nil, List.sum_cons, List.sum_nil, List.zip_cons_cons, List.zip_nil_right, add_zero] at hr ⊢
  rw [hr]; rfl

/-- Non-vacuity of C51: a solver that stops at a negative imaginary part is refused, one that stops at 1.4 is believed. -/
example : nEffBruggeman (fun _ _ => (1.4, -0.1)) [1.5] 1.33 [0.5] = .error .valueError ∧
    (∃ z : ℂ, nEffBruggeman (fun _ _ => (1.4, 0)) [1.5] 1.33 [0.5] = .ok z ∧ z.re = 1.4 ∧ z.im = 0) ∧
    nEffMaxwellGarnett [1.5, 1.6] [1.33] 0.5 = .error .valueError :=
  ⟨((C51_n_eff_validation _ _ _ _).2 rfl).1 (by norm_num), ((C51_n_eff_validation _ _ _ _).2 rfl).2 (by norm_num),
    (C51_maxwell_garnett_lengths _ _ _).1 (by simp)⟩

end Verif.Props
