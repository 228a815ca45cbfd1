import Verif.Model.Fft
import Mathlib.RingTheory.RootsOfUnity.Complex
import Mathlib.Tactic

/-!
# C116: `conv_circ` is the circular convolution
-/

namespace Verif.Props

open Verif.Fft
open Verif (PyErr)

/-- the circular convolution of two sequences of period n, by its definition -/
def circConv (n : ℕ) (s k : ℕ → ℝ) (j : ℕ) : ℝ := ∑ i ∈ Finset.range n, s i * k ((j + (n - i)) % n)

private theorem phase_add (n : ℕ) (a b : ℝ) : phase n (a + b) = phase n a * phase n b := by
  unfold phase
  rw [← Complex.exp_add]
  congr 1
  push_cast
  ring

private theorem phase_period (n : ℕ) (hn : 0 < n) (a : ℤ) : phase n (n * a) = 1 := by
  unfold phase
  rw [Complex.exp_eq_one_iff]
  refine ⟨a, ?_⟩
  have : (n : ℂ) ≠ 0 := by exact_mod_cast hn.ne'
  push_cast
  field_simp

private theorem phase_pow (n : ℕ) (a : ℝ) (k : ℕ) : phase n (a * k) = phase n a ^ k := by
  unfold phase
  rw [← Complex.exp_nat_mul]
  congr 1
  push_cast
  ring

private theorem phase_ne (n : ℕ) (hn : 0 < n) (d : ℤ) (h : ¬ (n : ℤ) ∣ d) : phase n d ≠ 1 := by
  intro h1
  unfold phase at h1
  rw [Complex.exp_eq_one_iff] at h1
  obtain ⟨m, hm⟩ := h1
  apply h
  refine ⟨m, ?_⟩
  have hn' : (n : ℂ) ≠ 0 := by exact_mod_cast hn.ne'
  have hpi : (2 * Real.pi * Complex.I : ℂ) ≠ 0 := Complex.two_pi_I_ne_zero
  have : (2 * Real.pi * Complex.I : ℂ) * d = (2 * Real.pi * Complex.I) * (n * m) := by
    field_simp at hm
    push_cast at hm
    linear_combination (2 * Real.pi * Complex.I : ℂ) * hm
  have := mul_left_cancel₀ hpi this
  exact_mod_cast this

private theorem orth (n : ℕ) (hn : 0 < n) (d : ℤ) :
    ∑ k ∈ Finset.range n, phase n (d * k) = if (n : ℤ) ∣ d then (n : ℂ) else 0 := by
  simp_rw [phase_pow]
  split_ifs with h
  · obtain ⟨a, rfl⟩ := h
    have := phase_period n hn a
    push_cast
    simp [this]
  · have h1 := phase_ne n hn d h
    rw [geom_sum_eq h1, ← phase_pow]
    have : phase n ((d : ℝ) * n) = 1 := by rw [mul_comm]; exact phase_period n hn d
    rw [this]; simp

private theorem pick (n : ℕ) (hn : 0 < n) (k : ℕ → ℝ) (i j : ℕ) (hi : i < n) :
    ∑ b ∈ Finset.range n, (k b : ℂ) * (if (n : ℤ) ∣ ((j : ℤ) - i - b) then (n : ℂ) else 0) =
      k ((j + (n - i)) % n) * n := by
  have hb : (j + (n - i)) % n < n := Nat.mod_lt _ hn
  rw [Finset.sum_eq_single ((j + (n - i)) % n)]
  · rw [if_pos]
    have h := Nat.div_add_mod (j + (n - i)) n
    refine ⟨((j + (n - i)) / n : ℕ) - 1, ?_⟩
    have : (n : ℤ) * ((j + (n - i)) / n : ℕ) + ((j + (n - i)) % n : ℕ) = j + (n - i) := by
      have h' : ((n * ((j + (n - i)) / n) + (j + (n - i)) % n : ℕ) : ℤ) = ((j + (n - i) : ℕ) : ℤ) := by rw [h]
      rw [Nat.cast_add, Nat.cast_mul, Nat.cast_add, Nat.cast_sub hi.le] at h'
      exact h'
    linear_combination -this
  · intro b hbn hne
    rw [if_neg, mul_zero]
    intro hd
    apply hne
    have hbn' : b < n := Finset.mem_range.mp hbn
    have e : (n : ℤ) ∣ ((j + (n - i) : ℕ) : ℤ) - b := by
      rw [Nat.cast_add, Nat.cast_sub hi.le]
      have : (j : ℤ) + (n - i) - b = (j - i - b) + n := by ring
      rw [this]
      exact dvd_add hd (dvd_refl _)
    have := (Nat.modEq_iff_dvd (n := n) (a := b) (b := j + (n - i))).mpr (by exact_mod_cast e)
    unfold Nat.ModEq at this
    rw [Nat.mod_eq_of_lt hbn'] at this
    exact this
  · intro h; exact absurd (Finset.mem_range.mpr hb) h

private theorem back_eq (n : ℕ) (hn : 0 < n) (s k : ℕ → ℝ) (j : ℕ) :
    ifft n (fun q => fft n (fun i => s i) q * fft n (fun i => k i) q) j = (circConv n s k j : ℂ) := by
  have hn' : (n : ℂ) ≠ 0 := by exact_mod_cast hn.ne'
  unfold ifft fft
  rw [div_eq_iff hn']
  have e : ∀ q ∈ Finset.range n, (∑ a ∈ Finset.range n, (s a : ℂ) * phase n (-(a * q))) *
      (∑ b ∈ Finset.range n, (k b : ℂ) * phase n (-(b * q))) * phase n (j * q) =
      ∑ a ∈ Finset.range n, ∑ b ∈ Finset.range n, (s a : ℂ) * (k b * phase n ((((j : ℤ) - a - b : ℤ) : ℝ) * q)) := by
    intro q _
    rw [Finset.sum_mul_sum, Finset.sum_mul]
    refine Finset.sum_congr rfl fun a _ => ?_
    rw [Finset.sum_mul]
    refine Finset.sum_congr rfl fun b _ => ?_
    have : ((((j : ℤ) - a - b : ℤ) : ℝ) * q) = -(a * q) + -(b * q) + j * q := by push_cast; ring
    rw [this, phase_add, phase_add]
    ring
  rw [Finset.sum_congr rfl e, Finset.sum_comm]
  unfold circConv
  push_cast
  rw [Finset.sum_mul]
  refine Finset.sum_congr rfl fun a ha => ?_
  rw [Finset.sum_comm]
  simp_rw [← Finset.mul_sum]
  rw [mul_assoc]
  congr 1
  rw [← pick n hn k a j (Finset.mem_range.mp ha)]
  refine Finset.sum_congr rfl fun b _ => ?_
  have h := orth n hn ((j : ℤ) - a - b)
  push_cast at h
  rw [h]

private theorem rep_same (n : ℕ) (S : ℕ → ℂ) (k : ℕ) (hk : k < n) : repeated n S k = S k := by
  unfold repeated
  split_ifs with h
  · subst h; congr 1; omega
  · rfl

private theorem fft_one (s : ℕ → ℂ) (k : ℕ) : repeated 1 (fft 1 s) k = s 0 := by
  simp [repeated, fft, phase]

private theorem back_same (n : ℕ) (hn : 0 < n) (s k : ℕ → ℝ) (j : ℕ) :
    backTransform n n s k j = (circConv n s k j : ℂ) := by
  rw [← back_eq n hn]
  unfold backTransform ifft
  rw [max_self]
  congr 1
  refine Finset.sum_congr rfl fun q hq => ?_
  dsimp only
  rw [rep_same _ _ _ (Finset.mem_range.mp hq), rep_same _ _ _ (Finset.mem_range.mp hq)]

private theorem back_one_right (n : ℕ) (hn : 0 < n) (s k : ℕ → ℝ) (j : ℕ) (hj : j < n) :
    backTransform n 1 s k j = ((k 0 * s j : ℝ) : ℂ) := by
  have h1 : circConv n s (fun i => if i = 0 then k 0 else 0) j = k 0 * s j := by
    unfold circConv
    rw [Finset.sum_eq_single j]
    · have : (j + (n - j)) % n = 0 := by rw [Nat.add_sub_cancel' hj.le, Nat.mod_self]
      simp [this, mul_comm]
    · intro i hi hne
      have hi' := Finset.mem_range.mp hi
      dsimp only
      rw [if_neg, mul_zero]
      intro hz
      rcases Nat.lt_or_ge i j with h | h
      · have : j + (n - i) = n + (j - i) := by omega
        rw [this, Nat.add_mod_left, Nat.mod_eq_of_lt (by omega)] at hz
        omega
      · rw [Nat.mod_eq_of_lt (by omega)] at hz
        omega
    · intro h; exact absurd (Finset.mem_range.mpr hj) h
  rw [← h1, ← back_eq n hn]
  unfold backTransform ifft
  rw [max_eq_left (by omega : 1 ≤ n)]
  congr 1
  refine Finset.sum_congr rfl fun q hq => ?_
  dsimp only
  rw [rep_same _ _ _ (Finset.mem_range.mp hq), fft_one]
  congr 2
  unfold fft
  rw [Finset.sum_eq_single 0]
  · simp [phase]
  · intro b _ hb; simp [hb]
  · intro h; exact absurd (Finset.mem_range.mpr hn) h

private theorem back_comm (na nb : ℕ) (s k : ℕ → ℝ) (j : ℕ) :
    backTransform na nb s k j = backTransform nb na k s j := by
  unfold backTransform
  rw [max_comm]
  congr 1
  funext q
  ring

/-- C116.  For every two real arrays of the same length n > 0, `conv_circ` returns n numbers, the j-th of which is the
circular convolution `∑ i, signal[i] * ker[(j - i) mod n]`. -/
theorem C116_circular_convolution (n : ℕ) (hn : 0 < n) (s k : ℕ → ℝ) :
    ∃ out : ℕ → ℝ, convCirc n n s k = .ok (n, out) ∧
      ∀ j < n, out j = ∑ i ∈ Finset.range n, s i * k ((j + (n - i)) % n) := by
  refine ⟨_, by unfold convCirc; rw [if_neg (by omega), if_pos (Or.inl rfl), max_self], fun j _ => ?_⟩
  simp only [back_same n hn, Complex.ofReal_re]
  rfl

/-- C116.  `np.real` discards nothing: whenever `conv_circ` returns, every complex number it takes the real part of is real. -/
theorem C116_nothing_discarded (na nb : ℕ) (s k : ℕ → ℝ) (m : ℕ) (out : ℕ → ℝ) (h : convCirc na nb s k = .ok (m, out))
    (j : ℕ) (hj : j < m) : backTransform na nb s k j = out j := by
  unfold convCirc at h
  split_ifs at h with h0 h1
  · injection h with h
    obtain ⟨hm, ho⟩ := Prod.mk.inj h
    rw [← ho]
    dsimp only
    push Not at h0
    have hna := Nat.pos_of_ne_zero h0.1
    have hnb := Nat.pos_of_ne_zero h0.2
    rcases h1 with h1 | h1 | h1
    · subst h1; simp [back_same na hna]
    · subst h1
      rw [max_eq_right (by omega)] at hm
      subst hm
      rw [back_comm, back_one_right _ hnb _ _ _ hj]; simp
    · subst h1
      rw [max_eq_left (by omega)] at hm
      subst hm
      rw [back_one_right _ hna _ _ _ hj]; simp

/-- C116.  Signal and kernel may be exchanged, whatever their lengths. -/
theorem C116_commutative (na nb : ℕ) (s k : ℕ → ℝ) : convCirc na nb s k = convCirc nb na k s := by
  unfold convCirc
  have h0 : (na = 0 ∨ nb = 0) ↔ (nb = 0 ∨ na = 0) := or_comm
  have h1 : (na = nb ∨ na = 1 ∨ nb = 1) ↔ (nb = na ∨ nb = 1 ∨ na = 1) := by tauto
  simp only [h0, h1, max_comm na nb, back_comm na nb]

private theorem perm_sum (n : ℕ) (hn : 0 < n) (k : ℕ → ℝ) (i : ℕ) (hi : i < n) :
    ∑ j ∈ Finset.range n, k ((j + (n - i)) % n) = ∑ j ∈ Finset.range n, k j := by
  refine Finset.sum_nbij' (fun j => (j + (n - i)) % n) (fun j => (j + i) % n) ?_ ?_ ?_ ?_ ?_
  · intro j _; exact Finset.mem_range.mpr (Nat.mod_lt _ hn)
  · intro j _; exact Finset.mem_range.mpr (Nat.mod_lt _ hn)
  · intro j hj
    have := Finset.mem_range.mp hj
    rw [Nat.mod_add_mod, show j + (n - i) + i = j + n by omega, Nat.add_mod_right, Nat.mod_eq_of_lt this]
  · intro j hj
    have := Finset.mem_range.mp hj
    rw [Nat.mod_add_mod, show j + i + (n - i) = j + n by omega, Nat.add_mod_right, Nat.mod_eq_of_lt this]
  · intro j _; rfl

/-- C116.  The total is kept: the results add up to the product of the totals of signal and kernel, so smoothing with a kernel
of total 1 conserves the total. -/
theorem C116_total (n : ℕ) (hn : 0 < n) (s k : ℕ → ℝ) (out : ℕ → ℝ) (h : convCirc n n s k = .ok (n, out)) :
    ∑ j ∈ Finset.range n, out j = (∑ j ∈ Finset.range n, s j) * ∑ j ∈ Finset.range n, k j := by
  obtain ⟨out', h', ho⟩ := C116_circular_convolution n hn s k
  rw [h] at h'
  injection h' with h'
  obtain rfl := (Prod.mk.inj h').2
  rw [Finset.sum_congr rfl fun j hj => ho j (Finset.mem_range.mp hj), Finset.sum_comm, Finset.sum_mul]
  refine Finset.sum_congr rfl fun i hi => ?_
  rw [← Finset.mul_sum, perm_sum n hn k i (Finset.mem_range.mp hi)]

/-- C116.  With a nonnegative signal and kernel the result is nonnegative: a density stays a density. -/
theorem C116_nonneg (n : ℕ) (hn : 0 < n) (s k : ℕ → ℝ) (hs : ∀ i < n, 0 ≤ s i) (hk : ∀ i < n, 0 ≤ k i) (out : ℕ → ℝ)
    (h : convCirc n n s k = .ok (n, out)) (j : ℕ) (hj : j < n) : 0 ≤ out j := by
  obtain ⟨out', h', ho⟩ := C116_circular_convolution n hn s k
  rw [h] at h'
  injection h' with h'
  obtain rfl := (Prod.mk.inj h').2
  rw [ho j hj]
  exact Finset.sum_nonneg fun i hi => mul_nonneg (hs i (Finset.mem_range.mp hi)) (hk _ (Nat.mod_lt _ hn))

/-- C116.  Which shapes are refused: exactly when an array is empty or the lengths differ with neither equal to 1; the only
exception is ValueError. -/
theorem C116_shapes (na nb : ℕ) (s k : ℕ → ℝ) :
    (convCirc na nb s k = .error .valueError ↔ na = 0 ∨ nb = 0 ∨ (na ≠ nb ∧ na ≠ 1 ∧ nb ≠ 1)) ∧
    ∀ e, convCirc na nb s k = .error e → e = .valueError := by
  constructor
  · unfold convCirc
    split_ifs with h0 h1
    · simp; tauto
    · simp; tauto
    · simp; tauto
  · intro e h
    unfold convCirc at h
    split_ifs at h <;> simp_all

/-- C116.  The documented requirement of equal shapes is not checked for an array of length 1: it is accepted and multiplies
the other array. -/
theorem C116_length_one (n : ℕ) (hn : 0 < n) (s k : ℕ → ℝ) :
    ∃ out : ℕ → ℝ, convCirc n 1 s k = .ok (n, out) ∧ ∀ j < n, out j = k 0 * s j := by
  refine ⟨_, by unfold convCirc; rw [if_neg (by omega), if_pos (Or.inr (Or.inr rfl)), max_eq_left (by omega)], fun j hj => ?_⟩
  simp only [back_one_right n hn _ _ _ hj, Complex.ofReal_re]

/-- smoothing `[1, 0, 0, 0]` with `[1/2, 1/4, 0, 1/4]` gives the kernel -/
example : ∃ out : ℕ → ℝ, convCirc 4 4 (fun i => if i = 0 then 1 else 0) (fun i => if i = 0 then 1/2 else if i = 2 then 0 else 1/4)
    = .ok (4, out) ∧ out 0 = 1/2 ∧ out 3 = 1/4 ∧ out 2 = 0 := by
  obtain ⟨out, h, ho⟩ := C116_circular_convolution 4 (by norm_num) (fun i => if i = 0 then 1 else 0)
    (fun i => if i = 0 then 1/2 else if i = 2 then 0 else 1/4)
  refine ⟨out, h, ?_, ?_, ?_⟩
  · rw [ho 0 (by norm_num)]; simp [Finset.sum_range_succ]
  · rw [ho 3 (by norm_num)]; simp [Finset.sum_range_succ]
  · rw [ho 2 (by norm_num)]; simp [Finset.sum_range_succ]

end Verif.Props
