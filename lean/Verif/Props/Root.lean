import Verif.Lemmas.Root

/-!
# Properties of /repo/structcol/__init__.py: C01–C04
-/

namespace Verif.Props
open Classical Verif.Spec Verif.Root XF

/-! ## C01 -/

/-- C01.  Element `i` of `refraction(angles, n1, n2)` is the number `t` exactly when `t` is the angle in
[-π/2, π/2] that satisfies Snell's law; it is NaN exactly when `n1 |sin θ| > n2`, i.e. exactly when there is no
such angle; and it is never anything else (no infinities). -/
theorem C01_refraction_snell {n : ℕ} (angles : Fin n → ℝ) {n1 n2 : ℝ} (h1 : 0 < n1) (h2 : 0 < n2) (i : Fin n) :
    (∀ t : ℝ, refraction (fun j => fin (angles j)) (fin n1) (fin n2) i = fin t ↔
        IsRefractionAngle t ∧ Snell n1 n2 (angles i) t) ∧
    (refraction (fun j => fin (angles j)) (fin n1) (fin n2) i = nan ↔ n2 < n1 * |Real.sin (angles i)|) ∧
    (refraction (fun j => fin (angles j)) (fin n1) (fin n2) i = nan ↔
        ¬ ∃ t : ℝ, IsRefractionAngle t ∧ Snell n1 n2 (angles i) t) := by
  unfold refraction
  simp only [refraction1_fin h2.ne']
  set s := Real.sin (angles i) with hs
  have habs : (1 < |n1 / n2 * s|) ↔ n2 < n1 * |s| := by
    rw [abs_mul, abs_div, abs_of_pos h1, abs_of_pos h2, div_mul_eq_mul_div, lt_div_iff₀ h2, one_mul]
  have key : ∀ t : ℝ, (if 1 < |n1 / n2 * s| then nan else fin (Real.arcsin (n1 / n2 * s))) = fin t ↔
        IsRefractionAngle t ∧ Snell n1 n2 (angles i) t := by
    intro t
    split
    · next h =>
      rw [habs] at h
      simp only [nan_ne_fin, false_iff]
      rintro ⟨_, hsn⟩
      unfold Snell at hsn
      rw [← hs] at hsn
      have : n1 * |s| = n2 * |Real.sin t| := by
        rw [← abs_of_pos h1, ← abs_mul, hsn, abs_mul, abs_of_pos h2]
      have h3 := Real.abs_sin_le_one t
      nlinarith
    · next h =>
      have h' := not_lt.mp h
      rw [abs_le] at h'
      rw [fin_inj]
      constructor
      · rintro rfl
        refine ⟨⟨Real.neg_pi_div_two_le_arcsin _, Real.arcsin_le_pi_div_two _⟩, ?_⟩
        unfold Snell
        rw [Real.sin_arcsin h'.1 h'.2, ← hs]
        field_simp
      · rintro ⟨⟨ht1, ht2⟩, hsn⟩
        unfold Snell at hsn
        rw [← hs] at hsn
        have : n1 / n2 * s = Real.sin t := by
          field_simp
          linarith
        rw [this, Real.arcsin_sin ht1 ht2]
  refine ⟨key, ?_, ?_⟩
  · rw [← habs]
    split
    · next h => exact ⟨fun _ => h, fun _ => rfl⟩
    · next h => exact ⟨fun h' => absurd h' (fin_ne_nan _), fun h' => absurd h' h⟩
  · constructor
    · intro h
      rintro ⟨t, ht⟩
      rw [(key t).2 ht] at h
      exact fin_ne_nan _ h
    · intro h
      by_contra hne
      apply h
      have : ¬ (1 < |n1 / n2 * s|) := by
        intro h3; apply hne; rw [if_pos h3]
      exact ⟨Real.arcsin (n1 / n2 * s), (key _).1 (by rw [if_neg this])⟩

/-- Non-vacuity of C01: light at 90° from index 1 into index 2 is refracted to 30°; from 2 to 1 at 90° it is NaN. -/
example : refraction (fun _ : Fin 1 => fin (Real.pi / 2)) (fin 1) (fin 2) 0 = fin (Real.pi / 6) ∧
    refraction (fun _ : Fin 1 => fin (Real.pi / 2)) (fin 2) (fin 1) 0 = nan := by
  refine ⟨?_, ?_⟩
  · refine ((C01_refraction_snell (fun _ : Fin 1 => Real.pi / 2) one_pos two_pos 0).1 _).2 ⟨?_, ?_⟩
    · unfold IsRefractionAngle
      constructor <;> linarith [Real.pi_pos]
    · unfold Snell
      rw [Real.sin_pi_div_two, Real.sin_pi_div_six]; norm_num
  · refine (C01_refraction_snell (fun _ : Fin 1 => Real.pi / 2) two_pos one_pos 0).2.1.2 ?_
    rw [Real.sin_pi_div_two]; norm_num

/-! ## C02 -/

/-- C02 (a).  Refracting there and back returns the original angle. -/
theorem C02_refraction_roundtrip {n1 n2 θ t : ℝ} (h1 : 0 < n1) (h2 : 0 < n2) (hθ : IsRefractionAngle θ)
    (ht : refraction1 (fin θ) (fin n1) (fin n2) = fin t) :
    refraction1 (fin t) (fin n2) (fin n1) = fin θ := by
  have a := ((C01_refraction_snell (fun _ : Fin 1 => θ) h1 h2 0).1 t).1 ht
  exact ((C01_refraction_snell (fun _ : Fin 1 => t) h2 h1 0).1 θ).2 ⟨hθ, a.2.symm⟩

/-- C02 (b).  Equal indices: no change. -/
theorem C02_refraction_equal_index {n1 θ : ℝ} (h1 : 0 < n1) (hθ : IsRefractionAngle θ) :
    refraction1 (fin θ) (fin n1) (fin n1) = fin θ :=
  ((C01_refraction_snell (fun _ : Fin 1 => θ) h1 h1 0).1 θ).2 ⟨hθ, rfl⟩

/-- C02 (c).  Refraction is odd: the mirrored ray is refracted to the mirrored direction (or is also reflected totally). -/
theorem C02_refraction_odd {n1 n2 θ : ℝ} (h2 : 0 < n2) :
    refraction1 (fin (-θ)) (fin n1) (fin n2) = -refraction1 (fin θ) (fin n1) (fin n2) := by
  rw [refraction1_fin h2.ne', refraction1_fin h2.ne', Real.sin_neg, mul_neg, abs_neg, Real.arcsin_neg]
  split <;> simp

/-- C02 (d).  On [-π/2, π/2] the refracted angle is strictly increasing with the incidence angle. -/
theorem C02_refraction_strictMono {n1 n2 θ θ' t t' : ℝ} (h1 : 0 < n1) (h2 : 0 < n2)
    (hθ : IsRefractionAngle θ) (hθ' : IsRefractionAngle θ') (hlt : θ < θ')
    (ht : refraction1 (fin θ) (fin n1) (fin n2) = fin t)
    (ht' : refraction1 (fin θ') (fin n1) (fin n2) = fin t') : t < t' := by
  have a := ((C01_refraction_snell (fun _ : Fin 1 => θ) h1 h2 0).1 t).1 ht
  have b := ((C01_refraction_snell (fun _ : Fin 1 => θ') h1 h2 0).1 t').1 ht'
  have hs : Real.sin θ < Real.sin θ' := Real.sin_lt_sin_of_lt_of_le_pi_div_two hθ.1 hθ'.2 hlt
  have h3 : n2 * Real.sin t < n2 * Real.sin t' := by
    have ha := a.2; have hb := b.2
    unfold Snell at ha hb
    nlinarith
  by_contra hge
  have hge' := not_lt.mp hge
  have h4 : Real.sin t' ≤ Real.sin t := Real.sin_le_sin_of_le_of_le_pi_div_two b.1.1 a.1.2 hge'
  nlinarith

/-- Non-vacuity of C02: the 90° ray from 1 to 2 comes back. -/
example : refraction1 (fin (Real.pi / 6)) (fin 2) (fin 1) = fin (Real.pi / 2) := by
  have hp := Real.pi_pos
  refine C02_refraction_roundtrip one_pos two_pos ⟨by linarith, le_refl _⟩ ?_
  refine ((C01_refraction_snell (fun _ : Fin 1 => Real.pi / 2) one_pos two_pos 0).1 _).2 ⟨?_, ?_⟩
  · exact ⟨by linarith, by linarith⟩
  · unfold Snell; rw [Real.sin_pi_div_two, Real.sin_pi_div_six]; norm_num

/-! ## C03 -/

/-- C03 (a).  A non-zero vector is scaled by a positive number to norm 1, with either setting of the flag. -/
theorem C03_normalize_unit {n : ℕ} (v : Fin n → V3) (rn : Bool) (i : Fin n) (hv : v i ≠ V3.zero) :
    ∃ w : V3, V3.norm w = 1 ∧ (∃ c : ℝ, 0 < c ∧ w = V3.smul c (v i)) ∧
      let r := Root.normalize (fun j => fin (v j).x) (fun j => fin (v j).y) (fun j => fin (v j).z) rn
      r.1 i = fin w.x ∧ r.2.1 i = fin w.y ∧ r.2.2 i = fin w.z := by
  set m := Real.sqrt ((v i).x * (v i).x + (v i).y * (v i).y + (v i).z * (v i).z) with hm
  have hpos : 0 < (v i).x * (v i).x + (v i).y * (v i).y + (v i).z * (v i).z := by
    by_contra h
    apply hv
    have h0 := mul_self_nonneg (v i).x
    have h1 := mul_self_nonneg (v i).y
    have h2 := mul_self_nonneg (v i).z
    have hx : (v i).x * (v i).x = 0 := by linarith
    have hy : (v i).y * (v i).y = 0 := by linarith
    have hz : (v i).z * (v i).z = 0 := by linarith
    ext
    · exact mul_self_eq_zero.mp hx
    · exact mul_self_eq_zero.mp hy
    · exact mul_self_eq_zero.mp hz
  have hm0 : 0 < m := Real.sqrt_pos.mpr hpos
  have hsq : m * m = (v i).x * (v i).x + (v i).y * (v i).y + (v i).z * (v i).z :=
    Real.mul_self_sqrt hpos.le
  refine ⟨V3.smul (1 / m) (v i), ?_, ⟨1 / m, by positivity, rfl⟩, ?_⟩
  · unfold V3.norm V3.normSq V3.dot V3.smul
    simp only
    have : 1 / m * (v i).x * (1 / m * (v i).x) + 1 / m * (v i).y * (1 / m * (v i).y)
        + 1 / m * (v i).z * (1 / m * (v i).z) = 1 := by
      field_simp
      nlinarith [hsq]
    rw [this, Real.sqrt_one]
  · have hne : ∀ x : ℝ, (fin x : XF) / fin m = fin (1 / m * x) := by
      intro x
      rw [XF.fin_div x hm0.ne', fin_inj]; ring
    have hcol : ∀ p : Prop, ∀ [Decidable p],
        (if p then (fun i => if magnitude (fin (v i).x) (fin (v i).y) (fin (v i).z) = fin 0 then fin 1
            else magnitude (fin (v i).x) (fin (v i).y) (fin (v i).z))
          else fun i => magnitude (fin (v i).x) (fin (v i).y) (fin (v i).z)) i = fin m := by
      intro p _
      split
      · beta_reduce; rw [magnitude_fin, ← hm, if_neg]; simp [hm0.ne']
      · beta_reduce; rw [magnitude_fin]
    simp only [Root.normalize, hcol, hne, V3.smul, and_self]

/-- C03 (b).  The zero vector gives NaN components with `return_nan=True` and the zero vector with `return_nan=False`. -/
theorem C03_normalize_zero {n : ℕ} (v : Fin n → V3) (i : Fin n) (hv : v i = V3.zero) :
    (let r := Root.normalize (fun j => fin (v j).x) (fun j => fin (v j).y) (fun j => fin (v j).z) true
     r.1 i = nan ∧ r.2.1 i = nan ∧ r.2.2 i = nan) ∧
    (let r := Root.normalize (fun j => fin (v j).x) (fun j => fin (v j).y) (fun j => fin (v j).z) false
     r.1 i = fin 0 ∧ r.2.1 i = fin 0 ∧ r.2.2 i = fin 0) := by
  have hm : magnitude (fin (v i).x) (fin (v i).y) (fin (v i).z) = fin 0 := by
    rw [magnitude_fin, hv]; simp [V3.zero]
  have hx : (v i).x = 0 := by rw [hv]; rfl
  have hy : (v i).y = 0 := by rw [hv]; rfl
  have hz : (v i).z = 0 := by rw [hv]; rfl
  have h00 : (fin 0 : XF) / fin 0 = nan := by
    rw [fin_div_def, if_pos rfl, infOfSign]; simp
  have h01 : (fin 0 : XF) / fin 1 = fin 0 := by
    rw [fin_div _ one_ne_zero]; simp
  refine ⟨?_, ?_⟩
  · have hm' : magnitude (fin 0) (fin 0) (fin 0) = fin 0 := by rw [hx, hy, hz] at hm; exact hm
    simp only [Root.normalize, Bool.not_true, Bool.false_eq_true, false_and, if_false, hx, hy, hz, hm', h00,
      and_self]
  · have hall : allEqZero (fun i => magnitude (fin (v i).x) (fin (v i).y) (fin (v i).z)) := by
      intro h; exact h i hm
    have hm' : magnitude (fin 0) (fin 0) (fin 0) = fin 0 := by rw [hx, hy, hz] at hm; exact hm
    simp only [Root.normalize, Bool.not_false, hall, and_self, if_true, hx, hy, hz, hm', h01]

/-- C03 (c).  Column independence: if column `i` of one batch and column `j` of another (of any size) hold the same
(possibly non-finite) vector, the results in those columns agree. -/
theorem C03_normalize_columnwise {n m : ℕ} (x y z : Fin n → XF) (x' y' z' : Fin m → XF) (rn : Bool)
    (i : Fin n) (j : Fin m) (hx : x i = x' j) (hy : y i = y' j) (hz : z i = z' j) :
    (Root.normalize x y z rn).1 i = (Root.normalize x' y' z' rn).1 j ∧
    (Root.normalize x y z rn).2.1 i = (Root.normalize x' y' z' rn).2.1 j ∧
    (Root.normalize x y z rn).2.2 i = (Root.normalize x' y' z' rn).2.2 j := by
  have key : ∀ {k : ℕ} (x y z : Fin k → XF) (i : Fin k),
      (if (!rn) = true ∧ allEqZero (fun i => magnitude (x i) (y i) (z i)) then
          (fun i => if magnitude (x i) (y i) (z i) = fin 0 then fin 1 else magnitude (x i) (y i) (z i))
        else fun i => magnitude (x i) (y i) (z i)) i =
      if rn = false ∧ magnitude (x i) (y i) (z i) = fin 0 then fin 1 else magnitude (x i) (y i) (z i) := by
    intro k x y z i
    by_cases hm : magnitude (x i) (y i) (z i) = fin 0
    · have hall : allEqZero (fun i => magnitude (x i) (y i) (z i)) := fun h => h i hm
      cases rn <;> simp [hall, hm]
    · simp only [hm, and_false, if_false]
      split <;> simp [hm]
  simp only [Root.normalize, key, hx, hy, hz, and_self]

/-- Non-vacuity of C03: the batch [(3,0,4), (0,0,0)] with `return_nan=False`; the first column is normalised to
a unit vector although the batch contains a zero vector, and the second stays zero. -/
example : let v : Fin 2 → V3 := ![⟨3, 0, 4⟩, ⟨0, 0, 0⟩]
    (Root.normalize (fun j => fin (v j).x) (fun j => fin (v j).y) (fun j => fin (v j).z) false).2.2 1 = fin 0 ∧
    v 0 ≠ V3.zero := by
  intro v
  refine ⟨(C03_normalize_zero v 1 rfl).2.2.2, ?_⟩
  intro h
  have : (v 0).x = 0 := by rw [h]; rfl
  simp [v] at this

/-! ## C04 -/

/-- C04 (a).  2D `select_events`: the result is the array's own-event value per trajectory, zero where the event number is
not positive. -/
theorem C04_select_events_2d {α : Type} [Zero α] {r c : ℕ} (a : Fin r → Fin c → α) (ev : Fin c → ℤ)
    (hle : ∀ j, ev j ≤ r) :
    ∃ out : Fin c → α, selectEvents2 a ev = .ok out ∧
      ∀ j : Fin c, (ev j ≤ 0 → out j = 0) ∧
        ∀ e : Fin r, ev j = (e : ℤ) + 1 → out j = a e j := by
  have hh : ∀ j : Fin c, 0 < ev j → (ev j - 1).toNat < r ∧ j.val < c := by
    intro j hj
    have := hle j
    exact ⟨by omega, j.2⟩
  unfold selectEvents2
  rw [dif_pos hh]
  refine ⟨_, rfl, ?_⟩
  intro j
  constructor
  · intro h
    rw [dif_neg (by omega)]
  · intro e he
    rw [dif_pos (by omega)]
    congr 1
    apply Fin.ext
    simp only
    omega

/-- C04 (b).  3D `select_events` does the same for each coordinate. -/
theorem C04_select_events_3d {α : Type} [Zero α] {d r c : ℕ} (a : Fin d → Fin r → Fin c → α) (ev : Fin c → ℤ)
    (hle : ∀ j, ev j ≤ r) :
    ∃ out : Fin d → Fin c → α, selectEvents3 a ev = .ok out ∧
      ∀ (k : Fin d) (j : Fin c), (ev j ≤ 0 → out k j = 0) ∧
        ∀ e : Fin r, ev j = (e : ℤ) + 1 → out k j = a k e j := by
  have hh : ∀ j : Fin c, 0 < ev j → (ev j - 1).toNat < r ∧ j.val < c := by
    intro j hj
    have := hle j
    exact ⟨by omega, j.2⟩
  unfold selectEvents3
  rw [dif_pos hh]
  refine ⟨_, rfl, ?_⟩
  intro k j
  constructor
  · intro h
    rw [dif_neg (by omega)]
  · intro e he
    rw [dif_pos (by omega)]
    congr 1
    apply Fin.ext
    simp only
    omega

/-- C04 (c).  An event number above the number of rows is an IndexError. -/
theorem C04_select_events_out_of_range {α : Type} [Zero α] {r c : ℕ} (a : Fin r → Fin c → α) (ev : Fin c → ℤ)
    (j : Fin c) (hj : (r : ℤ) < ev j) : selectEvents2 a ev = .error .indexError := by
  unfold selectEvents2
  rw [dif_neg]
  intro h
  have := (h j (by omega)).1
  omega

/-- Non-vacuity of C04: three trajectories, two events; events [2, 0, 1]. -/
example : selectEvents2 (r := 2) (c := 3) (![![10, 20, 30], ![11, 21, 31]] : Fin 2 → Fin 3 → ℤ) ![2, 0, 1] =
    .ok ![11, 0, 30] := by
  obtain ⟨out, ho, h⟩ := C04_select_events_2d (![![10, 20, 30], ![11, 21, 31]] : Fin 2 → Fin 3 → ℤ) ![2, 0, 1]
    (by intro j; fin_cases j <;> simp)
  rw [ho]
  congr 1
  funext j
  fin_cases j
  · exact (h 0).2 1 (by simp)
  · exact (h 1).1 (by simp)
  · exact (h 2).2 0 (by simp)

end Verif.Props
