import Verif.Model.ComplexFresnel
import Verif.Props.Fresnel
import Mathlib.Analysis.SpecialFunctions.Pow.Real

/-!
# Property C120: Fresnel coefficients of an absorbing sample (complex index)
-/

namespace Verif.Props
open Classical Verif.Spec Verif.Fresnel XF

/-- The textbook reflectance at normal incidence between two media of complex index, both polarisations. -/
noncomputable def textbookNormal (n1 n2 : ℂ) : ℝ := ‖(n1 - n2) / (n1 + n2)‖ ^ 2

private theorem cx_w {z : ℂ} (hz : 0 < z.re) :
    0 < (Complex.I * z + (1 - z ^ 2) ^ (1 / 2 : ℂ)).im := by
  set s : ℂ := (1 - z ^ 2) ^ (1 / 2 : ℂ) with hs
  have hs2 : s ^ 2 = 1 - z ^ 2 := by
    rw [hs, one_div]
    exact Complex.cpow_nat_inv_pow (1 - z ^ 2) two_ne_zero
  set w := Complex.I * z + s with hw
  set w' := s - Complex.I * z with hw'
  have hI := Complex.I_sq
  have hp : w * w' = 1 := by
    have : w * w' = s ^ 2 - Complex.I ^ 2 * z ^ 2 := by rw [hw, hw']; ring
    rw [this, hs2, hI]; ring
  have hd : w - w' = 2 * (Complex.I * z) := by rw [hw, hw']; ring
  have hw0 : w ≠ 0 := by rintro h; rw [h, zero_mul] at hp; exact zero_ne_one hp
  have hinv : w' = w⁻¹ := eq_inv_of_mul_eq_one_right hp
  have him := congrArg Complex.im hd
  rw [hinv, Complex.sub_im, Complex.inv_im] at him
  have hr : (2 * (Complex.I * z)).im = 2 * z.re := by simp
  rw [hr] at him
  have hn : 0 < Complex.normSq w := Complex.normSq_pos.mpr hw0
  by_contra hneg
  have h0 : w.im ≤ 0 := not_lt.mp hneg
  have : -w.im / Complex.normSq w ≥ 0 := div_nonneg (by linarith) hn.le
  linarith

private theorem cxArcsin_re_pos {z : ℂ} (hz : 0 < z.re) : 0 < (cxArcsin z).re := by
  have h := cx_w hz
  have e : (cxArcsin z).re = Complex.arg (Complex.I * z + (1 - z ^ 2) ^ (1 / 2 : ℂ)) := by
    simp [cxArcsin, Complex.log_im]
  rw [e]
  rcases (Complex.arg_nonneg_iff.mpr h.le).eq_or_lt with h0 | h0
  · have := (Complex.arg_eq_zero_iff.mp h0.symm).2
    linarith
  · exact h0

/-- At normal incidence nothing is taken for total internal reflection (the real parts of the indices being such
that `n2/n1` has positive real part). -/
private theorem notTir0 {n1 n2 : ℂ} (h : 0 < (n2 / n1).re) : ¬ tirMaskC n1 n2 0 := by
  rintro ⟨_, h'⟩
  have := cxArcsin_re_pos h
  rcases h' with h' | ⟨h', _⟩
  · simp at h'; linarith
  · simp at h'; linarith

private theorem rootC0 (n1 n2 : ℂ) : rootC n1 n2 0 = ‖n2‖ := by
  simp [rootC, norm_pow, Real.sqrt_sq]

/-- C120 (partial: what is right).  A ray leaving an absorbing sample at normal incidence into a transparent medium: both
coefficients are the textbook reflectance of the complex index. -/
theorem C120_leaving_normal_partial {n1 : ℂ} {n2 : ℝ} (h1 : 0 < n1.re) (h2 : 0 < n2) :
    fresnelReflectionC n1 (n2 : ℂ) (fun _ : Fin 1 => 0) =
      .ok (fun _ => fin (textbookNormal n1 n2), fun _ => fin (textbookNormal n1 n2)) := by
  have hn1 : n1 ≠ 0 := by rintro rfl; simp at h1
  have hre : 0 < ((n2 : ℂ) / n1).re := by
    rw [Complex.div_re]
    have := Complex.normSq_pos.mpr hn1
    simp
    positivity
  have hpi : ¬ ∃ _ : Fin 1, Real.pi / 2 < 0 := by
    rintro ⟨_, h⟩; linarith [Real.pi_pos]
  have hr : rootC n1 n2 0 = n2 := by rw [rootC0]; simp [abs_of_pos h2]
  have hs : n1 + (n2 : ℂ) ≠ 0 := by
    intro h; have := congrArg Complex.re h; simp at this; linarith
  have hn2 : (n2 : ℂ) ≠ 0 := by exact_mod_cast h2.ne'
  have hp : rParC n1 n2 0 = fin (textbookNormal n1 n2) := by
    have e1 : n1 * (n2 : ℂ) + (n2 : ℂ) ^ 2 = (n1 + n2) * n2 := by ring
    have e2 : n1 * (n2 : ℂ) - (n2 : ℂ) ^ 2 = (n1 - n2) * n2 := by ring
    simp only [rParC, if_neg (notTir0 hre), hr, ratioSqC, Real.cos_zero, Complex.ofReal_one, mul_one]
    rw [if_neg (by rw [e1]; exact mul_ne_zero hs hn2), e1, e2, mul_div_mul_right _ _ hn2, textbookNormal]
  have hq : rPerpC n1 n2 0 = fin (textbookNormal n1 n2) := by
    simp only [rPerpC, if_neg (notTir0 hre), hr, ratioSqC, Real.cos_zero, Complex.ofReal_one, mul_one]
    rw [if_neg hs, textbookNormal]
  simp only [fresnelReflectionC, if_neg hpi, hp, hq]

private theorem frac_eq (n1 r c s : ℝ) (hr : c ^ 2 + s ^ 2 = r ^ 2) :
    ‖((n1 : ℂ) - ⟨c, s⟩) / ((n1 : ℂ) + ⟨c, s⟩)‖ ^ 2 =
      (n1 ^ 2 + r ^ 2 - 2 * n1 * c) / (n1 ^ 2 + r ^ 2 + 2 * n1 * c) := by
  rw [← Complex.normSq_eq_norm_sq, Complex.normSq_div, Complex.normSq_apply, Complex.normSq_apply]
  simp
  congr 1 <;> nlinarith

/-- C120 (partial: what is wrong, exactly).  A ray entering an absorbing sample at normal incidence from a transparent
medium: the two coefficients, which should be equal, bracket the textbook value: the perpendicular one is too small and
the parallel one too large, strictly as soon as the sample absorbs. -/
theorem C120_entering_normal_partial {n1 : ℝ} {n2 : ℂ} (h1 : 0 < n1) (h2 : 0 < n2.re) :
    ∃ rp rs : ℝ,
      fresnelReflectionC (n1 : ℂ) n2 (fun _ : Fin 1 => 0) = .ok (fun _ => fin rp, fun _ => fin rs) ∧
      rs ≤ textbookNormal n1 n2 ∧ textbookNormal n1 n2 ≤ rp ∧
      (n2.im ≠ 0 → rs < textbookNormal n1 n2 ∧ textbookNormal n1 n2 < rp) ∧
      (n2.im = 0 → rs = textbookNormal n1 n2 ∧ rp = textbookNormal n1 n2) := by
  obtain ⟨a, b⟩ := n2
  simp only at h2
  have hn2 : (⟨a, b⟩ : ℂ) ≠ 0 := by intro h; have := congrArg Complex.re h; simp at this; linarith
  have hre : 0 < ((⟨a, b⟩ : ℂ) / (n1 : ℂ)).re := by
    rw [Complex.div_ofReal_re]; exact div_pos h2 h1
  have hpi : ¬ ∃ _ : Fin 1, Real.pi / 2 < 0 := by
    rintro ⟨_, h⟩; linarith [Real.pi_pos]
  set r : ℝ := ‖(⟨a, b⟩ : ℂ)‖ with hrdef
  have hrpos : 0 < r := norm_pos_iff.mpr hn2
  have hr2 : r ^ 2 = a ^ 2 + b ^ 2 := by
    rw [hrdef, ← Complex.normSq_eq_norm_sq, Complex.normSq_apply]; ring
  have har : a ≤ r := by nlinarith
  -- the three values
  have hT : textbookNormal n1 ⟨a, b⟩ = (n1 ^ 2 + r ^ 2 - 2 * n1 * a) / (n1 ^ 2 + r ^ 2 + 2 * n1 * a) :=
    frac_eq n1 r a b hr2.symm
  have hS : rPerpC n1 ⟨a, b⟩ 0 = fin ((n1 ^ 2 + r ^ 2 - 2 * n1 * r) / (n1 ^ 2 + r ^ 2 + 2 * n1 * r)) := by
    simp only [rPerpC, if_neg (notTir0 hre), rootC0, ratioSqC, Real.cos_zero, Complex.ofReal_one, mul_one]
    rw [if_neg (by
      intro h; have := congrArg Complex.re h; simp at this; linarith), ← hrdef]
    have := frac_eq n1 r r 0 (by ring)
    rw [← this]
    rfl
  set c : ℝ := (a ^ 2 - b ^ 2) / r with hc
  set s : ℝ := 2 * a * b / r with hsd
  have hcr : c * r = a ^ 2 - b ^ 2 := by rw [hc]; field_simp
  have hsr : s * r = 2 * a * b := by rw [hsd]; field_simp
  have hcs : c ^ 2 + s ^ 2 = r ^ 2 := by
    have : (c ^ 2 + s ^ 2) * r ^ 2 = r ^ 2 * r ^ 2 := by
      calc (c ^ 2 + s ^ 2) * r ^ 2 = (c * r) ^ 2 + (s * r) ^ 2 := by ring
        _ = _ := by rw [hcr, hsr, hr2]; ring
    exact mul_right_cancel₀ (by positivity) this
  have hsq : (⟨a, b⟩ : ℂ) ^ 2 = ⟨c, s⟩ * (r : ℂ) := by
    apply Complex.ext
    · simp [pow_two, hcr]
    · simp [pow_two, hsr]; ring
  have hrC : (r : ℂ) ≠ 0 := by exact_mod_cast hrpos.ne'
  have hden : (n1 : ℂ) + ⟨c, s⟩ ≠ 0 := by
    intro h
    have hre' := congrArg Complex.re h
    have him' := congrArg Complex.im h
    simp at hre' him'
    have : s * r = 0 := by rw [him', zero_mul]
    have hb : b = 0 := by
      rw [hsr] at this
      rcases mul_eq_zero.mp this with h' | h'
      · rcases mul_eq_zero.mp h' with h'' | h'' <;> linarith
      · exact h'
    have : c * r = a ^ 2 := by rw [hcr, hb]; ring
    have hc0 : c = -n1 := by linarith
    rw [hc0] at this
    nlinarith [mul_pos h1 hrpos]
  have hP : rParC n1 ⟨a, b⟩ 0 = fin ((n1 ^ 2 + r ^ 2 - 2 * n1 * c) / (n1 ^ 2 + r ^ 2 + 2 * n1 * c)) := by
    simp only [rParC, if_neg (notTir0 hre), rootC0, ratioSqC, Real.cos_zero, Complex.ofReal_one, mul_one]
    rw [← hrdef, hsq, ← add_mul, ← sub_mul, if_neg (mul_ne_zero hden hrC), mul_div_mul_right _ _ hrC,
      frac_eq n1 r c s hcs]
  have hca : c ≤ a := by
    have : c * r ≤ a * r := by rw [hcr]; nlinarith [sq_nonneg b]
    exact le_of_mul_le_mul_right this hrpos
  have hDc : 0 < n1 ^ 2 + r ^ 2 + 2 * n1 * c := by
    have h0 : 0 < ‖(n1 : ℂ) + ⟨c, s⟩‖ ^ 2 := by positivity
    rw [← Complex.normSq_eq_norm_sq, Complex.normSq_apply] at h0
    simp at h0
    nlinarith
  have mono : ∀ {u v : ℝ}, u ≤ v → 0 < n1 ^ 2 + r ^ 2 + 2 * n1 * u →
      (n1 ^ 2 + r ^ 2 - 2 * n1 * v) / (n1 ^ 2 + r ^ 2 + 2 * n1 * v) ≤
        (n1 ^ 2 + r ^ 2 - 2 * n1 * u) / (n1 ^ 2 + r ^ 2 + 2 * n1 * u) := by
    intro u v huv hu
    have hv : 0 < n1 ^ 2 + r ^ 2 + 2 * n1 * v := by nlinarith
    rw [div_le_div_iff₀ hv hu]
    nlinarith [mul_nonneg (mul_nonneg h1.le (sub_nonneg.mpr huv)) (by positivity : 0 ≤ n1 ^ 2 + r ^ 2)]
  have smono : ∀ {u v : ℝ}, u < v → 0 < n1 ^ 2 + r ^ 2 + 2 * n1 * u →
      (n1 ^ 2 + r ^ 2 - 2 * n1 * v) / (n1 ^ 2 + r ^ 2 + 2 * n1 * v) <
        (n1 ^ 2 + r ^ 2 - 2 * n1 * u) / (n1 ^ 2 + r ^ 2 + 2 * n1 * u) := by
    intro u v huv hu
    have hv : 0 < n1 ^ 2 + r ^ 2 + 2 * n1 * v := by nlinarith
    rw [div_lt_div_iff₀ hv hu]
    nlinarith [mul_pos (mul_pos h1 (sub_pos.mpr huv)) (by positivity : 0 < n1 ^ 2 + r ^ 2)]
  have hDa : 0 < n1 ^ 2 + r ^ 2 + 2 * n1 * a := by positivity
  refine ⟨(n1 ^ 2 + r ^ 2 - 2 * n1 * c) / (n1 ^ 2 + r ^ 2 + 2 * n1 * c),
    (n1 ^ 2 + r ^ 2 - 2 * n1 * r) / (n1 ^ 2 + r ^ 2 + 2 * n1 * r),
    by simp only [fresnelReflectionC, if_neg hpi, hP, hS], ?_, ?_, ?_, ?_⟩
  · rw [hT]; exact mono har hDa
  · rw [hT]; exact mono hca hDc
  · intro hb
    simp only at hb
    have hb2 : 0 < b ^ 2 := by positivity
    rw [hT]
    refine ⟨smono ?_ hDa, smono ?_ hDc⟩
    · nlinarith
    · have : c * r < a * r := by rw [hcr]; nlinarith
      exact lt_of_mul_lt_mul_right this hrpos.le
  · intro hb
    simp only at hb
    have hra : r = a := by
      rw [hb] at hr2; nlinarith
    have hca' : c = a := by rw [hc, hb, hra]; field_simp; ring
    rw [hT, hca', hra]; exact ⟨rfl, rfl⟩

/-- The claim as one would expect it: at normal incidence the two polarisations, which are then indistinguishable, get the
same coefficient. -/
def PolarisationsAgreeAtNormal : Prop :=
  ∀ (n1 n2 : ℂ), 0 < n1.re → 0 < n2.re → ∀ rp rs : Fin 1 → XF,
    fresnelReflectionC n1 n2 (fun _ : Fin 1 => 0) = .ok (rp, rs) → rp = rs

/-- C120 (refuted).  From air into a sample of index 1.5 + 0.5i the two coefficients at normal incidence differ. -/
theorem C120_normal_refuted : ¬ PolarisationsAgreeAtNormal := by
  intro h
  obtain ⟨rp, rs, he, _, _, hst, _⟩ :=
    C120_entering_normal_partial (n1 := 1) (n2 := ⟨3 / 2, 1 / 2⟩) one_pos (by norm_num)
  have := h _ _ (by simp) (by norm_num) _ _ he
  have h2 := hst (by norm_num)
  have h3 := congrFun this 0
  simp only [fin_inj] at h3
  linarith [h2.1, h2.2]

private theorem norm_ratio_le_one {a b : ℂ} (h : 0 ≤ (a * (starRingEnd ℂ) b).re) (hab : a + b ≠ 0) :
    ‖(a - b) / (a + b)‖ ^ 2 ≤ 1 := by
  rw [← Complex.normSq_eq_norm_sq, Complex.normSq_div, div_le_one (Complex.normSq_pos.mpr hab),
    Complex.normSq_add, Complex.normSq_sub]
  linarith

private theorem one_lt_norm_ratio {a b : ℂ} (h : (a * (starRingEnd ℂ) b).re < 0) (hab : a + b ≠ 0) :
    1 < ‖(a - b) / (a + b)‖ ^ 2 := by
  rw [← Complex.normSq_eq_norm_sq, Complex.normSq_div, one_lt_div (Complex.normSq_pos.mpr hab),
    Complex.normSq_add, Complex.normSq_sub]
  linarith

private theorem re_mul_ofReal_conj (x : ℝ) (z : ℂ) : ((x : ℂ) * (starRingEnd ℂ) z).re = x * z.re := by simp

theorem ratioSqC_frac {a b : ℂ} (h : 0 ≤ (a * (starRingEnd ℂ) b).re) : ∃ r : ℝ, ratioSqC a b = fin r ∧ IsFraction r := by
  unfold ratioSqC
  by_cases h0 : a + b = 0
  · have ha : a = 0 := by
      have hb : b = -a := by rw [eq_neg_iff_add_eq_zero, add_comm]; exact h0
      rw [hb, map_neg, mul_neg, Complex.mul_conj] at h
      simp at h
      have := Complex.normSq_nonneg a
      exact Complex.normSq_eq_zero.mp (by linarith)
    exact ⟨1, by rw [if_pos h0, if_pos ha], zero_le_one, le_refl _⟩
  · exact ⟨_, by rw [if_neg h0], by positivity, norm_ratio_le_one h h0⟩

/-- C120 (range).  A ray leaving an absorbing sample into a transparent medium: both coefficients are fractions at every angle. -/
theorem C120_leaving_range {n : ℕ} (θ : Fin n → ℝ) {n1 : ℂ} {n2 : ℝ} (h1 : 0 < n1.re)
    (hθ : ∀ i, 0 ≤ θ i ∧ θ i ≤ Real.pi / 2) :
    ∃ rp rs : Fin n → ℝ,
      fresnelReflectionC n1 (n2 : ℂ) θ = .ok (fun i => fin (rp i), fun i => fin (rs i)) ∧
      ∀ i, IsFraction (rp i) ∧ IsFraction (rs i) := by
  have hnerr : ¬ ∃ i, Real.pi / 2 < θ i := by rintro ⟨i, hi⟩; linarith [(hθ i).2]
  have hr : ∀ i, ∃ r : ℝ × ℝ, rParC n1 n2 (θ i) = fin r.1 ∧ rPerpC n1 n2 (θ i) = fin r.2 ∧
      IsFraction r.1 ∧ IsFraction r.2 := by
    intro i
    by_cases ht : tirMaskC n1 n2 (θ i)
    · exact ⟨(1, 1), by rw [rParC, if_pos ht], by rw [rPerpC, if_pos ht], ⟨zero_le_one, le_refl _⟩,
        ⟨zero_le_one, le_refl _⟩⟩
    · have hc : 0 ≤ Real.cos (θ i) :=
        Real.cos_nonneg_of_mem_Icc ⟨by linarith [(hθ i).1, Real.pi_pos], (hθ i).2⟩
      have hroot : 0 ≤ rootC n1 n2 (θ i) := Real.sqrt_nonneg _
      obtain ⟨p, hp, hpf⟩ := ratioSqC_frac (a := n1 * rootC n1 n2 (θ i)) (b := (n2 : ℂ) ^ 2 * Real.cos (θ i)) (by
        rw [← Complex.ofReal_pow, ← Complex.ofReal_mul, Complex.conj_ofReal, Complex.re_mul_ofReal, Complex.re_mul_ofReal]
        positivity)
      obtain ⟨s, hs, hsf⟩ := ratioSqC_frac (a := n1 * Real.cos (θ i)) (b := rootC n1 n2 (θ i)) (by
        rw [Complex.conj_ofReal, Complex.re_mul_ofReal, Complex.re_mul_ofReal]
        positivity)
      exact ⟨(p, s), by rw [rParC, if_neg ht, hp], by rw [rPerpC, if_neg ht, hs], hpf, hsf⟩
  choose r hr using hr
  refine ⟨fun i => (r i).1, fun i => (r i).2, ?_, fun i => (hr i).2.2⟩
  simp only [fresnelReflectionC, if_neg hnerr]
  congr 2
  · funext i; exact (hr i).1
  · funext i; exact (hr i).2.1

/-- C120 (range).  A ray entering an absorbing sample from a transparent medium: if the sample absorbs less than it
refracts (|Im n2| ≤ Re n2) both coefficients are fractions at every angle of incidence. -/
theorem C120_entering_range {n : ℕ} (θ : Fin n → ℝ) {n1 : ℝ} {n2 : ℂ} (h1 : 0 < n1) (h2 : 0 < n2.re)
    (hab : |n2.im| ≤ n2.re) (hθ : ∀ i, 0 ≤ θ i ∧ θ i ≤ Real.pi / 2) :
    ∃ rp rs : Fin n → ℝ,
      fresnelReflectionC (n1 : ℂ) n2 θ = .ok (fun i => fin (rp i), fun i => fin (rs i)) ∧
      ∀ i, IsFraction (rp i) ∧ IsFraction (rs i) := by
  have hnerr : ¬ ∃ i, Real.pi / 2 < θ i := by rintro ⟨i, hi⟩; linarith [(hθ i).2]
  have hsq : 0 ≤ (n2 ^ 2).re := by
    have : (n2 ^ 2).re = n2.re ^ 2 - n2.im ^ 2 := by rw [pow_two, Complex.mul_re]; ring
    rw [this]
    have := sq_le_sq' (by linarith [abs_nonneg n2.im]) hab
    rw [sq_abs] at this
    linarith
  have hr : ∀ i, ∃ r : ℝ × ℝ, rParC n1 n2 (θ i) = fin r.1 ∧ rPerpC n1 n2 (θ i) = fin r.2 ∧
      IsFraction r.1 ∧ IsFraction r.2 := by
    intro i
    by_cases ht : tirMaskC n1 n2 (θ i)
    · exact ⟨(1, 1), by rw [rParC, if_pos ht], by rw [rPerpC, if_pos ht], ⟨zero_le_one, le_refl _⟩,
        ⟨zero_le_one, le_refl _⟩⟩
    · have hc : 0 ≤ Real.cos (θ i) :=
        Real.cos_nonneg_of_mem_Icc ⟨by linarith [(hθ i).1, Real.pi_pos], (hθ i).2⟩
      have hroot : 0 ≤ rootC n1 n2 (θ i) := Real.sqrt_nonneg _
      obtain ⟨p, hp, hpf⟩ := ratioSqC_frac (a := (n1 : ℂ) * rootC n1 n2 (θ i)) (b := n2 ^ 2 * Real.cos (θ i)) (by
        rw [← Complex.ofReal_mul, re_mul_ofReal_conj, Complex.re_mul_ofReal]
        positivity)
      obtain ⟨s, hs, hsf⟩ := ratioSqC_frac (a := (n1 : ℂ) * Real.cos (θ i)) (b := rootC n1 n2 (θ i)) (by
        rw [← Complex.ofReal_mul, re_mul_ofReal_conj, Complex.ofReal_re]
        positivity)
      exact ⟨(p, s), by rw [rParC, if_neg ht, hp], by rw [rPerpC, if_neg ht, hs], hpf, hsf⟩
  choose r hr using hr
  refine ⟨fun i => (r i).1, fun i => (r i).2, ?_, fun i => (hr i).2.2⟩
  simp only [fresnelReflectionC, if_neg hnerr]
  congr 2
  · funext i; exact (hr i).1
  · funext i; exact (hr i).2.1

/-- C120 (range, refuted beyond that).  If the sample absorbs more than it refracts (Im n2 > Re n2 > 0, as metals do) the
parallel reflectance at normal incidence is larger than 1, so the transmitted fraction is negative. -/
theorem C120_metal_refuted {n1 : ℝ} {n2 : ℂ} (h1 : 0 < n1) (h2 : 0 < n2.re) (him : n2.re < |n2.im|) :
    ∃ (rp : ℝ) (rs : XF) (tp : ℝ) (ts : XF),
      fresnelReflectionC (n1 : ℂ) n2 (fun _ : Fin 1 => 0) = .ok (fun _ => fin rp, fun _ => rs) ∧
      fresnelTransmissionC (n1 : ℂ) n2 (fun _ : Fin 1 => 0) = .ok (fun _ => fin tp, fun _ => ts) ∧
      1 < rp ∧ tp < 0 := by
  have hpi : ¬ ∃ _ : Fin 1, Real.pi / 2 < 0 := by
    rintro ⟨_, h⟩; linarith [Real.pi_pos]
  have hre : 0 < (n2 / (n1 : ℂ)).re := by
    rw [Complex.div_ofReal_re]; exact div_pos h2 h1
  have hn2 : n2 ≠ 0 := by rintro rfl; simp at h2
  have hnorm : 0 < ‖n2‖ := norm_pos_iff.mpr hn2
  have hsqre : (n2 ^ 2).re = n2.re ^ 2 - n2.im ^ 2 := by rw [pow_two, Complex.mul_re]; ring
  have hsqim : (n2 ^ 2).im = 2 * n2.re * n2.im := by rw [pow_two, Complex.mul_im]; ring
  have hlt : n2.re ^ 2 < n2.im ^ 2 := by
    rw [← sq_abs n2.im]; exact pow_lt_pow_left₀ him h2.le two_ne_zero
  have him0 : n2.im ≠ 0 := by rintro h; rw [h] at him; simp at him; linarith
  have hden : (n1 : ℂ) * (‖n2‖ : ℝ) + n2 ^ 2 ≠ 0 := by
    intro h
    have := congrArg Complex.im h
    rw [Complex.add_im, hsqim, ← Complex.ofReal_mul, Complex.ofReal_im, Complex.zero_im, zero_add] at this
    rcases mul_eq_zero.mp this with h' | h'
    · linarith
    · exact him0 h'
  have hp : 1 < ‖((n1 : ℂ) * (‖n2‖ : ℝ) - n2 ^ 2) / ((n1 : ℂ) * (‖n2‖ : ℝ) + n2 ^ 2)‖ ^ 2 := by
    refine one_lt_norm_ratio ?_ hden
    rw [← Complex.ofReal_mul, re_mul_ofReal_conj, hsqre]
    exact mul_neg_of_pos_of_neg (mul_pos h1 hnorm) (by linarith)
  have hP : rParC n1 n2 0 = fin (‖((n1 : ℂ) * (‖n2‖ : ℝ) - n2 ^ 2) / ((n1 : ℂ) * (‖n2‖ : ℝ) + n2 ^ 2)‖ ^ 2) := by
    simp only [rParC, if_neg (notTir0 hre), rootC0, ratioSqC, Real.cos_zero, Complex.ofReal_one, mul_one, if_neg hden]
  set P := ‖((n1 : ℂ) * (‖n2‖ : ℝ) - n2 ^ 2) / ((n1 : ℂ) * (‖n2‖ : ℝ) + n2 ^ 2)‖ ^ 2
  refine ⟨P, rPerpC n1 n2 0, 1 - P, fin 1 - rPerpC n1 n2 0, ?_, ?_, hp, by linarith⟩
  · simp only [fresnelReflectionC, if_neg hpi, hP]
  · simp only [fresnelTransmissionC, fresnelReflectionC, if_neg hpi, hP, bind, Except.bind, pure, Except.pure, fin_sub]

private theorem cxArcsin_ofReal {x : ℝ} (h0 : 0 < x) (h1 : x < 1) : cxArcsin x = Real.arcsin x := by
  have hs : (0 : ℝ) ≤ 1 - x ^ 2 := by nlinarith
  have hw : Complex.I * (x : ℂ) + (1 - (x : ℂ) ^ 2) ^ (1 / 2 : ℂ) = ⟨Real.sqrt (1 - x ^ 2), x⟩ := by
    have : (1 - (x : ℂ) ^ 2) ^ (1 / 2 : ℂ) = ((Real.sqrt (1 - x ^ 2) : ℝ) : ℂ) := by
      have e : (1 - (x : ℂ) ^ 2) = ((1 - x ^ 2 : ℝ) : ℂ) := by push_cast; rfl
      rw [e, Real.sqrt_eq_rpow, Complex.ofReal_cpow hs]
      norm_num
    rw [this]
    apply Complex.ext <;> simp
  have hn : ‖(⟨Real.sqrt (1 - x ^ 2), x⟩ : ℂ)‖ = 1 := by
    have : ‖(⟨Real.sqrt (1 - x ^ 2), x⟩ : ℂ)‖ ^ 2 = 1 := by
      rw [← Complex.normSq_eq_norm_sq, Complex.normSq_apply]
      simp only
      rw [Real.mul_self_sqrt hs]; ring
    have h0 := norm_nonneg (⟨Real.sqrt (1 - x ^ 2), x⟩ : ℂ)
    nlinarith
  have ha : Complex.arg ⟨Real.sqrt (1 - x ^ 2), x⟩ = Real.arcsin x := by
    rw [Complex.arg_of_re_nonneg (Real.sqrt_nonneg _), hn, div_one]
  rw [cxArcsin, hw]
  apply Complex.ext
  · simp [Complex.log_im, ha]
  · simp [Complex.log_re, hn]

private theorem tirMaskC_ofReal {n1 n2 : ℝ} (h1 : 0 < n1) (h2 : 0 < n2) (θ : ℝ) :
    tirMaskC (n1 : ℂ) (n2 : ℂ) θ ↔ tirMask n1 n2 θ := by
  unfold tirMaskC tirMask
  rw [← Complex.ofReal_div]
  have e1 : cxLt ((n2 / n1 : ℝ) : ℂ) 1 ↔ n2 / n1 < 1 := by
    simp [cxLt, -Complex.ofReal_div]
  rw [e1]
  refine and_congr_right fun hlt => ?_
  rw [cxArcsin_ofReal (div_pos h2 h1) hlt]
  simp [cxLe, le_iff_lt_or_eq]

private theorem ratioSqC_ofReal {a b : ℝ} (ha : 0 ≤ a) (hb : 0 ≤ b) :
    ratioSqC (a : ℂ) (b : ℂ) = fin (ratioSq a b) := by
  unfold ratioSqC ratioSq
  rw [← Complex.ofReal_add, ← Complex.ofReal_sub, ← Complex.ofReal_div]
  by_cases h : a + b = 0
  · have : a = 0 := by linarith
    rw [if_pos (by rw [h, Complex.ofReal_zero]), if_pos h, if_pos (by rw [this, Complex.ofReal_zero])]
  · rw [if_neg (by exact_mod_cast h), if_neg h, Complex.norm_real, Real.norm_eq_abs]

/-- C120 (real indices).  With transparent media, at all angles from normal to grazing, the complex computation returns what
the real one returns, so C05–C08 apply to it. -/
theorem C120_real_indices {n : ℕ} (θ : Fin n → ℝ) {n1 n2 : ℝ} (h1 : 0 < n1) (h2 : 0 < n2)
    (hθ : ∀ i, 0 ≤ θ i ∧ θ i ≤ Real.pi / 2) :
    fresnelReflectionC (n1 : ℂ) (n2 : ℂ) θ = fresnelReflection n1 n2 (fun i => fin (θ i)) := by
  have hnerr : ¬ ∃ i, Real.pi / 2 < θ i := by rintro ⟨i, hi⟩; linarith [(hθ i).2]
  have hnerr' : ¬ ∃ i, (fin (Real.pi / 2) : XF) < fin (θ i) := by
    rintro ⟨i, hi⟩; rw [fin_lt] at hi; exact hnerr ⟨i, hi⟩
  have hroot : ∀ i, rootC (n1 : ℂ) (n2 : ℂ) (θ i) = root n1 n2 (θ i) := by
    intro i
    unfold rootC root
    rw [← Complex.ofReal_mul, ← Complex.ofReal_pow, ← Complex.ofReal_pow, ← Complex.ofReal_sub, Complex.norm_real,
      Real.norm_eq_abs]
  have hc : ∀ i, 0 ≤ Real.cos (θ i) := fun i =>
    Real.cos_nonneg_of_mem_Icc ⟨by linarith [(hθ i).1, Real.pi_pos], (hθ i).2⟩
  have hr0 : ∀ i, 0 ≤ root n1 n2 (θ i) := fun i => Real.sqrt_nonneg _
  have hP : ∀ i, rParC (n1 : ℂ) (n2 : ℂ) (θ i) = fin (rPar n1 n2 (θ i)) := by
    intro i
    unfold rParC rPar
    by_cases ht : tirMask n1 n2 (θ i)
    · rw [if_pos ht, if_pos ((tirMaskC_ofReal h1 h2 _).mpr ht)]
    · rw [if_neg ht, if_neg (fun h => ht ((tirMaskC_ofReal h1 h2 _).mp h)), hroot, ← Complex.ofReal_mul,
        ← Complex.ofReal_pow, ← Complex.ofReal_mul,
        ratioSqC_ofReal (mul_nonneg h1.le (hr0 i)) (mul_nonneg (by positivity) (hc i))]
  have hS : ∀ i, rPerpC (n1 : ℂ) (n2 : ℂ) (θ i) = fin (rPerp n1 n2 (θ i)) := by
    intro i
    unfold rPerpC rPerp
    by_cases ht : tirMask n1 n2 (θ i)
    · rw [if_pos ht, if_pos ((tirMaskC_ofReal h1 h2 _).mpr ht)]
    · rw [if_neg ht, if_neg (fun h => ht ((tirMaskC_ofReal h1 h2 _).mp h)), hroot, ← Complex.ofReal_mul,
        ratioSqC_ofReal (mul_nonneg h1.le (hc i)) (hr0 i)]
  simp only [fresnelReflectionC, fresnelReflection, if_neg hnerr, if_neg hnerr', onFin, hP, hS]

/-- Concrete cases: air into 1.5 + 0.01i satisfies the hypotheses of the entering theorems, silver-like 0.05 + 3i those of
the refutation. -/
example : (0 : ℝ) < (⟨3 / 2, 1 / 100⟩ : ℂ).re ∧ |(⟨3 / 2, 1 / 100⟩ : ℂ).im| ≤ (⟨3 / 2, 1 / 100⟩ : ℂ).re ∧
    (⟨3 / 2, 1 / 100⟩ : ℂ).im ≠ 0 ∧
    (0 : ℝ) < (⟨1 / 20, 3⟩ : ℂ).re ∧ (⟨1 / 20, 3⟩ : ℂ).re < |(⟨1 / 20, 3⟩ : ℂ).im| := by
  norm_num [abs_of_pos]

end Verif.Props
