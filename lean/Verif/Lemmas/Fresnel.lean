import Verif.Model.Fresnel
import Verif.Lemmas.Root
import Mathlib.Tactic.LinearCombination

namespace Verif.Fresnel
open Classical XF Root Verif.Spec

theorem ratioSq_nonneg (a b : ℝ) : 0 ≤ ratioSq a b := by
  unfold ratioSq; split
  · norm_num
  · positivity

theorem ratioSq_le_one {a b : ℝ} (ha : 0 ≤ a) (hb : 0 ≤ b) : ratioSq a b ≤ 1 := by
  unfold ratioSq; split
  · exact le_refl 1
  · next h =>
    have hs : 0 < a + b := lt_of_le_of_ne (by linarith) (Ne.symm h)
    rw [sq_abs, div_pow, div_le_one (by positivity)]
    nlinarith

theorem ratioSq_lt_one {a b : ℝ} (ha : 0 < a) (hb : 0 < b) : ratioSq a b < 1 := by
  unfold ratioSq
  have hs : 0 < a + b := by linarith
  rw [if_neg hs.ne', sq_abs, div_pow, div_lt_one (by positivity)]
  nlinarith

theorem ratioSq_comm (a b : ℝ) : ratioSq a b = ratioSq b a := by
  unfold ratioSq
  rw [add_comm b a]
  split
  · rfl
  · rw [sq_abs, sq_abs, div_pow, div_pow]
    congr 1
    ring

theorem ratioSq_mul (k a b : ℝ) (hk : k ≠ 0) : ratioSq (k * a) (k * b) = ratioSq a b := by
  unfold ratioSq
  rw [← mul_add, ← mul_sub]
  by_cases h : a + b = 0
  · simp [h]
  · rw [if_neg h, if_neg (mul_ne_zero hk h), mul_div_mul_left _ _ hk]

theorem ratioSq_zero_left (b : ℝ) : ratioSq 0 b = 1 := by
  unfold ratioSq
  by_cases h : b = 0
  · simp [h]
  · rw [if_neg (by simpa using h)]
    rw [sq_abs, div_pow, zero_add, zero_sub, neg_sq, div_self (by positivity)]

theorem ratioSq_zero_right (a : ℝ) : ratioSq a 0 = 1 := by rw [ratioSq_comm, ratioSq_zero_left]

theorem ratioSq_self {a : ℝ} (h : a ≠ 0) : ratioSq a a = 0 := by
  unfold ratioSq
  rw [if_neg (by intro h'; apply h; linarith)]
  simp

theorem ratioSq_eq_zero {a b : ℝ} (h : 0 < a + b) : ratioSq a b = 0 ↔ a = b := by
  unfold ratioSq
  rw [if_neg h.ne', sq_abs, div_pow, div_eq_zero_iff]
  constructor
  · rintro (h1 | h1)
    · have := pow_eq_zero_iff (two_ne_zero) |>.mp h1
      linarith
    · exact absurd h1 (by positivity)
  · rintro rfl; left; ring

theorem ratioSq_of_pos {a b : ℝ} (h : 0 < a + b) : ratioSq a b = ((a - b) / (a + b)) ^ 2 := by
  unfold ratioSq; rw [if_neg h.ne', sq_abs]

theorem cos_nonneg_of {θ : ℝ} (h0 : 0 ≤ θ) (h1 : θ ≤ Real.pi / 2) : 0 ≤ Real.cos θ :=
  Real.cos_nonneg_of_mem_Icc ⟨by linarith [Real.pi_pos], h1⟩

theorem cos_pos_of {θ : ℝ} (h0 : 0 ≤ θ) (h1 : θ < Real.pi / 2) : 0 < Real.cos θ :=
  Real.cos_pos_of_mem_Ioo ⟨by linarith [Real.pi_pos], h1⟩

theorem sin_nonneg_of {θ : ℝ} (h0 : 0 ≤ θ) (h1 : θ ≤ Real.pi / 2) : 0 ≤ Real.sin θ :=
  Real.sin_nonneg_of_nonneg_of_le_pi h0 (by linarith [Real.pi_pos])

theorem sin_lt_one_of {θ : ℝ} (h0 : 0 ≤ θ) (h1 : θ < Real.pi / 2) : Real.sin θ < 1 := by
  have h := cos_pos_of h0 h1
  nlinarith [Real.sin_sq_add_cos_sq θ, sin_nonneg_of h0 h1.le]

theorem root_nonneg (n1 n2 θ : ℝ) : 0 ≤ root n1 n2 θ := Real.sqrt_nonneg _

theorem tirMask_iff {n1 n2 θ : ℝ} (h1 : 0 < n1) (h2 : 0 < n2) (h0 : 0 ≤ θ) (hθ : θ ≤ Real.pi / 2) :
    tirMask n1 n2 θ ↔ n2 < n1 ∧ n2 ≤ n1 * Real.sin θ := by
  unfold tirMask
  rw [div_lt_one h1]
  refine and_congr_right fun hlt => ?_
  have hm : (-1 : ℝ) ≤ n2 / n1 := by have := div_pos h2 h1; linarith
  rw [Real.arcsin_le_iff_le_sin ⟨hm, (div_lt_one h1).mpr hlt |>.le⟩ ⟨by linarith [Real.pi_pos], hθ⟩,
    div_le_iff₀ h1, mul_comm]

theorem root_eq {n1 n2 θ1 θ2 : ℝ} (h2 : 0 < n2) (hs : n1 * Real.sin θ1 = n2 * Real.sin θ2)
    (ht : IsRefractionAngle θ2) : root n1 n2 θ1 = n2 * Real.cos θ2 := by
  unfold root
  have hc : 0 ≤ Real.cos θ2 := Real.cos_nonneg_of_mem_Icc ⟨ht.1, ht.2⟩
  have : n2 ^ 2 - (n1 * Real.sin θ1) ^ 2 = (n2 * Real.cos θ2) ^ 2 := by
    rw [hs]; nlinarith [Real.sin_sq_add_cos_sq θ2]
  rw [this, abs_of_nonneg (by positivity), Real.sqrt_sq (by positivity)]

theorem rPar_frac {n1 n2 θ : ℝ} (h1 : 0 < n1) (h0 : 0 ≤ θ) (hθ : θ ≤ Real.pi / 2) :
    0 ≤ rPar n1 n2 θ ∧ rPar n1 n2 θ ≤ 1 := by
  unfold rPar
  split
  · norm_num
  · exact ⟨ratioSq_nonneg _ _, ratioSq_le_one (mul_nonneg h1.le (root_nonneg _ _ _))
      (mul_nonneg (sq_nonneg _) (cos_nonneg_of h0 hθ))⟩

theorem rPerp_frac {n1 n2 θ : ℝ} (h1 : 0 < n1) (h0 : 0 ≤ θ) (hθ : θ ≤ Real.pi / 2) :
    0 ≤ rPerp n1 n2 θ ∧ rPerp n1 n2 θ ≤ 1 := by
  unfold rPerp
  split
  · norm_num
  · exact ⟨ratioSq_nonneg _ _, ratioSq_le_one (mul_nonneg h1.le (cos_nonneg_of h0 hθ)) (root_nonneg _ _ _)⟩

/-- below the critical angle, the coefficients in terms of the refracted angle -/
theorem rPar_eq {n1 n2 θ1 θ2 : ℝ} (h2 : 0 < n2) (hs : n1 * Real.sin θ1 = n2 * Real.sin θ2)
    (ht : IsRefractionAngle θ2) (hn : ¬ tirMask n1 n2 θ1) :
    rPar n1 n2 θ1 = ratioSq (n1 * Real.cos θ2) (n2 * Real.cos θ1) := by
  unfold rPar
  rw [if_neg hn, root_eq h2 hs ht, ← ratioSq_mul n2 (n1 * Real.cos θ2) (n2 * Real.cos θ1) h2.ne']
  congr 1 <;> ring

theorem rPerp_eq {n1 n2 θ1 θ2 : ℝ} (h2 : 0 < n2) (hs : n1 * Real.sin θ1 = n2 * Real.sin θ2)
    (ht : IsRefractionAngle θ2) (hn : ¬ tirMask n1 n2 θ1) :
    rPerp n1 n2 θ1 = ratioSq (n1 * Real.cos θ1) (n2 * Real.cos θ2) := by
  unfold rPerp
  rw [if_neg hn, root_eq h2 hs ht]

theorem angle_nonneg_of_snell {n1 n2 θ1 θ2 : ℝ} (h1 : 0 < n1) (h2 : 0 < n2) (h0 : 0 ≤ θ1)
    (hθ : θ1 ≤ Real.pi / 2) (hs : n1 * Real.sin θ1 = n2 * Real.sin θ2) (ht : IsRefractionAngle θ2) : 0 ≤ θ2 := by
  by_contra h
  have hneg : Real.sin θ2 < 0 := Real.sin_neg_of_neg_of_neg_pi_lt (not_le.mp h) (by linarith [ht.1, Real.pi_pos])
  have := sin_nonneg_of h0 hθ
  nlinarith

theorem grazing_eq_one {n1 n2 : ℝ} :
    rPar n1 n2 (Real.pi / 2) = 1 ∧ rPerp n1 n2 (Real.pi / 2) = 1 := by
  unfold rPar rPerp
  rw [Real.cos_pi_div_two, mul_zero, mul_zero, ratioSq_zero_right, ratioSq_zero_left]
  simp

theorem rMean_frac {n1 n2 θ : ℝ} (h1 : 0 < n1) (h0 : 0 ≤ θ) (hθ : θ ≤ Real.pi / 2) :
    0 ≤ rMean n1 n2 θ ∧ rMean n1 n2 θ ≤ 1 := by
  have a := rPar_frac (n2 := n2) h1 h0 hθ
  have b := rPerp_frac (n2 := n2) h1 h0 hθ
  unfold rMean
  constructor <;> linarith

theorem thetaInside_mem {nb ni θ : ℝ} (h1 : 0 < nb) (h2 : 0 < ni) (h0 : 0 ≤ θ) (hθ : θ ≤ Real.pi / 2) :
    0 ≤ thetaInside nb ni θ ∧ thetaInside nb ni θ ≤ Real.pi / 2 := by
  unfold thetaInside
  split
  · exact ⟨by linarith [Real.pi_pos], le_refl _⟩
  · refine ⟨Real.arcsin_nonneg.mpr ?_, Real.arcsin_le_pi_div_two _⟩
    have := sin_nonneg_of h0 hθ
    positivity

theorem thetaInside_snell {nb ni θ : ℝ} (h1 : 0 < nb) (h2 : 0 < ni) (h0 : 0 ≤ θ) (hθ : θ ≤ Real.pi / 2)
    (h : nb * Real.sin θ ≤ ni) : nb * Real.sin θ = ni * Real.sin (thetaInside nb ni θ) := by
  have hs := sin_nonneg_of h0 hθ
  have hle : nb / ni * Real.sin θ ≤ 1 := by
    rw [div_mul_eq_mul_div, div_le_one h2]; exact h
  have hge : 0 ≤ nb / ni * Real.sin θ := by positivity
  unfold thetaInside
  rw [if_neg (by rw [abs_of_nonneg hge]; exact not_lt.mpr hle), Real.sin_arcsin (by linarith) hle]
  field_simp

theorem passFrac_eq (nb : ℝ) (ni? : Option ℝ) (na θ : ℝ) :
    passFrac nb ni? na θ =
      (1 - rMean nb (ni?.getD nb) θ) * (1 - rMean (ni?.getD nb) na (thetaInside nb (ni?.getD nb) θ)) /
      (1 - rMean (ni?.getD nb) na (thetaInside nb (ni?.getD nb) θ) *
        rMean (ni?.getD nb) nb (thetaInside nb (ni?.getD nb) θ) + EPS) := by
  unfold passFrac rMean
  simp only
  congr 1
  · ring
  · ring

/-- Stokes reciprocity of the mean reflectance. -/
theorem r_recip {n1 n2 θ1 θ2 : ℝ} (h1 : 0 < n1) (h2 : 0 < n2) (h0 : 0 ≤ θ1) (hθ : θ1 < Real.pi / 2)
    (hs : n1 * Real.sin θ1 = n2 * Real.sin θ2) (ht : IsRefractionAngle θ2) (hlt : n1 * Real.sin θ1 < n2) :
    rPar n1 n2 θ1 = rPar n2 n1 θ2 ∧ rPerp n1 n2 θ1 = rPerp n2 n1 θ2 := by
  have hpi := Real.pi_pos
  have ht0 := angle_nonneg_of_snell h1 h2 h0 hθ.le hs ht
  have hn1 : ¬ tirMask n1 n2 θ1 := by
    rw [tirMask_iff h1 h2 h0 hθ.le]; rintro ⟨_, h⟩; linarith
  have hn2 : ¬ tirMask n2 n1 θ2 := by
    rw [tirMask_iff h2 h1 ht0 ht.2]
    rintro ⟨_, h⟩
    have := sin_lt_one_of h0 hθ
    nlinarith
  have hθr : IsRefractionAngle θ1 := ⟨by linarith, hθ.le⟩
  rw [rPar_eq h2 hs ht hn1, rPerp_eq h2 hs ht hn1, rPar_eq h1 hs.symm hθr hn2, rPerp_eq h1 hs.symm hθr hn2]
  exact ⟨ratioSq_comm _ _, ratioSq_comm _ _⟩

/-- first interface opaque -/
theorem rMean_eq_one_of {n1 n2 θ : ℝ} (h1 : 0 < n1) (h2 : 0 < n2) (h0 : 0 ≤ θ) (hθ : θ ≤ Real.pi / 2)
    (h : n2 ≤ n1 * Real.sin θ ∨ θ = Real.pi / 2) : rMean n1 n2 θ = 1 := by
  by_cases hg : θ = Real.pi / 2
  · subst hg
    unfold rMean; rw [grazing_eq_one.1, grazing_eq_one.2]; norm_num
  · have hlt : θ < Real.pi / 2 := lt_of_le_of_ne hθ hg
    have h' : n2 ≤ n1 * Real.sin θ := h.resolve_right hg
    have hm : tirMask n1 n2 θ := by
      rw [tirMask_iff h1 h2 h0 hθ]
      refine ⟨?_, h'⟩
      have := sin_lt_one_of h0 hlt
      nlinarith
    unfold rMean rPar rPerp
    rw [if_pos hm, if_pos hm]; norm_num

theorem rMean_lt_one_of {n1 n2 θ : ℝ} (h1 : 0 < n1) (h2 : 0 < n2) (h0 : 0 ≤ θ) (hθ : θ < Real.pi / 2)
    (h : n1 * Real.sin θ < n2) : rPar n1 n2 θ < 1 ∧ rPerp n1 n2 θ < 1 := by
  have hm : ¬ tirMask n1 n2 θ := by
    rw [tirMask_iff h1 h2 h0 hθ.le]; rintro ⟨_, h'⟩; linarith
  have hs := sin_nonneg_of h0 hθ.le
  have hr : 0 < root n1 n2 θ := by
    unfold root
    apply Real.sqrt_pos.mpr
    apply abs_pos.mpr
    have : (n1 * Real.sin θ) ^ 2 < n2 ^ 2 := by
      apply pow_lt_pow_left₀ h (by positivity) (by norm_num)
    linarith
  have hc := cos_pos_of h0 hθ
  unfold rPar rPerp
  rw [if_neg hm, if_neg hm]
  exact ⟨ratioSq_lt_one (by positivity) (by positivity), ratioSq_lt_one (by positivity) hr⟩

theorem rMean_same {n θ : ℝ} (hn : 0 < n) (h0 : 0 ≤ θ) (hθ : θ < Real.pi / 2) :
    rPar n n θ = 0 ∧ rPerp n n θ = 0 := by
  have hpi := Real.pi_pos
  have hm : ¬ tirMask n n θ := by
    rw [tirMask_iff hn hn h0 hθ.le]; rintro ⟨h', _⟩; exact lt_irrefl _ h'
  have hr : IsRefractionAngle θ := ⟨by linarith, hθ.le⟩
  have hc := cos_pos_of h0 hθ
  rw [rPar_eq hn rfl hr hm, rPerp_eq hn rfl hr hm]
  have : n * Real.cos θ ≠ 0 := by positivity
  exact ⟨ratioSq_self this, ratioSq_self this⟩

theorem EPS_pos : 0 < EPS := by unfold EPS; norm_num

theorem thetaInside_same {n θ : ℝ} (hn : 0 < n) (h0 : 0 ≤ θ) (hθ : θ ≤ Real.pi / 2) :
    thetaInside n n θ = θ := by
  unfold thetaInside
  rw [div_self hn.ne', one_mul, if_neg (not_lt.mpr (Real.abs_sin_le_one θ)),
    Real.arcsin_sin (by linarith [Real.pi_pos]) hθ]

/-- the NaN/exception level model agrees with the scalar model on finite angles in [0, π/2] -/
theorem fresnelPassFrac_fin {n : ℕ} (θ : Fin n → ℝ) {nb na : ℝ} (ni? : Option ℝ) (hb : 0 < nb)
    (hi : ∀ x, ni? = some x → 0 < x) (hθ : ∀ i, 0 ≤ θ i ∧ θ i ≤ Real.pi / 2) :
    fresnelPassFrac (fun i => fin (θ i)) nb ni? na = .ok (fun i => fin (passFrac nb ni? na (θ i))) := by
  have hni : 0 < ni?.getD nb := by
    cases ni? with
    | none => simpa using hb
    | some x => simpa using hi x rfl
  have hin : ∀ i, nanToHalfPi (refraction (fun i => fin (θ i)) (fin nb) (fin (ni?.getD nb)) i) =
      fin (thetaInside nb (ni?.getD nb) (θ i)) := by
    intro i
    unfold refraction thetaInside
    rw [refraction1_fin hni.ne']
    split <;> rfl
  have hnerr1 : ¬ ∃ i, (fin (Real.pi / 2) : XF) < fin (θ i) := by
    rintro ⟨i, hi⟩
    rw [fin_lt] at hi
    linarith [(hθ i).2]
  have hnerr2 : ¬ ∃ i, (fin (Real.pi / 2) : XF) < fin (thetaInside nb (ni?.getD nb) (θ i)) := by
    rintro ⟨i, hi⟩
    rw [fin_lt] at hi
    linarith [(thetaInside_mem hb hni (hθ i).1 (hθ i).2).2]
  unfold fresnelPassFrac
  simp only [hin, fresnelTransmission, fresnelReflection, if_neg hnerr1, if_neg hnerr2, bind, Except.bind,
    pure, Except.pure, onFin, fin_sub, fin_add, fin_mul]
  congr 1
  funext i
  have h4 : ∀ x : ℝ, (fin x : XF) / fin 4 = fin (x / 4) := fun x => fin_div x (by norm_num)
  rw [h4, h4, fin_sub, fin_add]
  have ht := thetaInside_mem hb hni (hθ i).1 (hθ i).2
  have e1 := rMean_frac (n2 := na) hni ht.1 ht.2
  have e2 := rMean_frac (n2 := nb) hni ht.1 ht.2
  have hden : 1 - (rPar (ni?.getD nb) na (thetaInside nb (ni?.getD nb) (θ i)) +
      rPerp (ni?.getD nb) na (thetaInside nb (ni?.getD nb) (θ i))) *
      (rPar (ni?.getD nb) nb (thetaInside nb (ni?.getD nb) (θ i)) +
      rPerp (ni?.getD nb) nb (thetaInside nb (ni?.getD nb) (θ i))) / 4 + EPS ≠ 0 := by
    have : rMean (ni?.getD nb) na (thetaInside nb (ni?.getD nb) (θ i)) *
        rMean (ni?.getD nb) nb (thetaInside nb (ni?.getD nb) (θ i)) ≤ 1 := by
      nlinarith
    unfold rMean at this
    have h3 := EPS_pos
    apply ne_of_gt
    nlinarith
  rw [fin_div _ hden]
  rfl

end Verif.Fresnel
