import Verif.Model.SingleScat
import Mathlib.Algebra.Order.BigOperators.Group.Finset
import Mathlib.Tactic.Linarith
import Mathlib.Tactic.FieldSimp
import Mathlib.Tactic.Ring
import Mathlib.Tactic.Positivity

/-!
# The trapezoid rule and evenly spaced grids
-/

namespace Verif.Lemmas
open Verif.SingleScat
open Verif.Traj (linspace)

theorem trapz_add (n : ℕ) (y z x : ℕ → ℝ) : trapz n (fun i => y i + z i) x = trapz n y x + trapz n z x := by
  unfold trapz
  rw [← Finset.sum_add_distrib]
  exact Finset.sum_congr rfl fun i _ => by ring

theorem trapz_const_mul (n : ℕ) (c : ℝ) (y x : ℕ → ℝ) : trapz n (fun i => c * y i) x = c * trapz n y x := by
  unfold trapz
  rw [Finset.mul_sum]
  exact Finset.sum_congr rfl fun i _ => by ring

theorem trapz_congr (n : ℕ) (y z x : ℕ → ℝ) (h : ∀ i < n, y i = z i) : trapz n y x = trapz n z x := by
  unfold trapz
  refine Finset.sum_congr rfl fun i hi => ?_
  have := Finset.mem_range.mp hi
  rw [h i (by omega), h (i+1) (by omega)]

theorem trapz_mono (n : ℕ) (y z x : ℕ → ℝ) (hx : ∀ i, i + 1 < n → x i ≤ x (i + 1)) (h : ∀ i < n, y i ≤ z i) :
    trapz n y x ≤ trapz n z x := by
  unfold trapz
  refine Finset.sum_le_sum fun i hi => ?_
  have hi := Finset.mem_range.mp hi
  have h1 := hx i (by omega)
  have h2 := h i (by omega)
  have h3 := h (i+1) (by omega)
  have : (x (i+1) - x i) * (y i + y (i+1)) ≤ (x (i+1) - x i) * (z i + z (i+1)) :=
    mul_le_mul_of_nonneg_left (by linarith) (by linarith)
  linarith

theorem trapz_zero (n : ℕ) (x : ℕ → ℝ) : trapz n (fun _ => 0) x = 0 := by simp [trapz]

theorem trapz_nonneg (n : ℕ) (y x : ℕ → ℝ) (hx : ∀ i, i + 1 < n → x i ≤ x (i + 1)) (h : ∀ i < n, 0 ≤ y i) :
    0 ≤ trapz n y x := by
  rw [← trapz_zero n x]; exact trapz_mono n _ _ x hx h

theorem trapz_pos (n : ℕ) (y x : ℕ → ℝ) (hn : 2 ≤ n) (hx : ∀ i, i + 1 < n → x i < x (i + 1)) (h : ∀ i < n, 0 < y i) :
    0 < trapz n y x := by
  unfold trapz
  apply Finset.sum_pos
  · intro i hi
    have hi := Finset.mem_range.mp hi
    have h1 := hx i (by omega)
    have h2 := h i (by omega)
    have h3 := h (i+1) (by omega)
    have : 0 < (x (i+1) - x i) * (y i + y (i+1)) := mul_pos (by linarith) (by linarith)
    linarith
  · exact ⟨0, Finset.mem_range.mpr (by omega)⟩

/-- a weight that is positive wherever the integrand is keeps a positive integral positive -/
theorem trapz_weight_pos (n : ℕ) (y w x : ℕ → ℝ) (hx : ∀ i, i + 1 < n → x i ≤ x (i + 1)) (hy : ∀ i < n, 0 ≤ y i)
    (hw : ∀ i < n, 0 ≤ w i) (hyw : ∀ i < n, 0 < y i → 0 < w i) (h : 0 < trapz n y x) : 0 < trapz n (fun i => y i * w i) x := by
  unfold trapz at *
  obtain ⟨i, hi, hpos⟩ : ∃ i ∈ Finset.range (n - 1), 0 < (x (i + 1) - x i) * (y i + y (i + 1)) / 2 := by
    by_contra hc
    push Not at hc
    exact absurd (Finset.sum_nonpos hc) (not_le.mpr h)
  have hi' := Finset.mem_range.mp hi
  refine Finset.sum_pos' (fun j hj => ?_) ⟨i, hi, ?_⟩
  · have hj := Finset.mem_range.mp hj
    have h1 := hx j (by omega)
    have h2 := mul_nonneg (hy j (by omega)) (hw j (by omega))
    have h3 := mul_nonneg (hy (j+1) (by omega)) (hw (j+1) (by omega))
    exact div_nonneg (mul_nonneg (by linarith) (by linarith)) (by norm_num)
  · have h1 := hx i (by omega)
    have a0 := hy i (by omega)
    have a1 := hy (i+1) (by omega)
    have h2 := mul_nonneg a0 (hw i (by omega))
    have h3 := mul_nonneg a1 (hw (i+1) (by omega))
    have hd : 0 < x (i+1) - x i := by
      rcases lt_or_eq_of_le h1 with h | h
      · linarith
      · rw [h] at hpos; simp at hpos
    have hs : 0 < y i + y (i+1) := by
      by_contra hc
      have : y i + y (i+1) = 0 := by linarith
      rw [this] at hpos; simp at hpos
    have : 0 < y i * w i + y (i+1) * w (i+1) := by
      rcases lt_or_eq_of_le a0 with h | h
      · have := mul_pos h (hyw i (by omega) h); linarith
      · have h' : 0 < y (i+1) := by linarith
        have := mul_pos h' (hyw (i+1) (by omega) h'); linarith
    have := mul_pos hd this
    linarith

/-- splitting the grid at one of its points -/
theorem trapz_split (m k : ℕ) (y x : ℕ → ℝ) :
    trapz (m + k + 1) y x = trapz (m + 1) y x + trapz (k + 1) (fun i => y (m + i)) (fun i => x (m + i)) := by
  unfold trapz
  simp only [Nat.add_sub_cancel]
  rw [Finset.sum_range_add]
  rfl

theorem linspace_le {a b : ℝ} (h : a ≤ b) (num i : ℕ) (hi : i + 1 < num) : linspace a b num i ≤ linspace a b num (i + 1) := by
  unfold linspace
  rw [if_neg (by omega), if_neg (by omega)]
  have : (1:ℝ) < num := by exact_mod_cast (by omega : 1 < num)
  have : 0 ≤ (b - a) / (num - 1) := div_nonneg (by linarith) (by linarith)
  push_cast; linarith

theorem linspace_lt {a b : ℝ} (h : a < b) (num i : ℕ) (hi : i + 1 < num) : linspace a b num i < linspace a b num (i + 1) := by
  unfold linspace
  rw [if_neg (by omega), if_neg (by omega)]
  have : (1:ℝ) < num := by exact_mod_cast (by omega : 1 < num)
  have : 0 < (b - a) / (num - 1) := div_pos (by linarith) (by linarith)
  push_cast; linarith

theorem linspace_mem {a b : ℝ} (h : a ≤ b) (num i : ℕ) (hi : i < num) : a ≤ linspace a b num i ∧ linspace a b num i ≤ b := by
  unfold linspace
  split_ifs with h1
  · exact ⟨le_rfl, h⟩
  · have h2 : (1:ℝ) < num := by exact_mod_cast (by omega : 1 < num)
    have h3 : (i:ℝ) + 1 ≤ num := by exact_mod_cast hi
    have e : a + i * ((b - a) / (num - 1)) = a + (b - a) * (i / (num - 1)) := by ring
    have h4 : (i:ℝ) / (num - 1) ≤ 1 := by rw [div_le_one (by linarith)]; linarith
    have h5 : 0 ≤ (i:ℝ) / (num - 1) := div_nonneg (by positivity) (by linarith)
    rw [e]
    constructor <;> nlinarith

end Verif.Lemmas
