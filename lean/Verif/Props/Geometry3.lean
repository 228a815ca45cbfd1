import Verif.Props.Geometry2

/-!
# Properties of the geometrical helpers of /repo/structcol/detector.py: C26–C29, C68–C70
-/

namespace Verif.Props
open Classical Verif.Spec Verif.Root Verif.Geometry XF

/-! ## C26 -/

theorem hemisphere_fin {k p : V3} (hk : k.normSq = 1) (θ L D : ℝ) :
    (hemispherePoint (ofV3 k) (ofV3 p) θ L D = ⟨nan, nan, nan⟩ ∧
      (V3.dot k p) ^ 2 < p.normSq - (D ^ 2 + (L / 2) ^ 2)) ∨
    ∃ s : ℝ, 0 ≤ s ∧ s * s = (V3.dot k p) ^ 2 - (p.normSq - (D ^ 2 + (L / 2) ^ 2)) ∧
      hemispherePoint (ofV3 k) (ofV3 p) θ L D =
        ofV3 (V3.add p (V3.smul (if θ < Real.pi / 2 then -V3.dot k p + s else -V3.dot k p - s) k)) := by
  have hrad : Real.sqrt (D ^ 2 + (L / 2) ^ 2) ^ 2 = D ^ 2 + (L / 2) ^ 2 := Real.sq_sqrt (by positivity)
  have ha : k.x * k.x + k.y * k.y + k.z * k.z = 1 := hk
  have hb : k.x * p.x + k.y * p.y + k.z * p.z = V3.dot k p := rfl
  have hc : p.x * p.x + p.y * p.y + p.z * p.z = p.normSq := rfl
  by_cases hneg : (V3.dot k p) ^ 2 < p.normSq - (D ^ 2 + (L / 2) ^ 2)
  · left
    refine ⟨?_, hneg⟩
    have hdisc : 2 * V3.dot k p * (2 * V3.dot k p) - 4 * 1 * (p.normSq - (D ^ 2 + (L / 2) ^ 2)) < 0 := by nlinarith
    unfold hemispherePoint quadratic
    simp only [ofV3, finV, fin_mul, fin_add, fin_sub, ha, hb, hc, hrad, sqrt_fin_neg hdisc]
    split <;> simp
  · right
    push Not at hneg
    have h0 : 0 ≤ (V3.dot k p) ^ 2 - (p.normSq - (D ^ 2 + (L / 2) ^ 2)) := by linarith
    refine ⟨Real.sqrt ((V3.dot k p) ^ 2 - (p.normSq - (D ^ 2 + (L / 2) ^ 2))), Real.sqrt_nonneg _,
      Real.mul_self_sqrt h0, ?_⟩
    set s := Real.sqrt ((V3.dot k p) ^ 2 - (p.normSq - (D ^ 2 + (L / 2) ^ 2))) with hs
    have hss : s * s = (V3.dot k p) ^ 2 - (p.normSq - (D ^ 2 + (L / 2) ^ 2)) := Real.mul_self_sqrt h0
    have hs0 : 0 ≤ s := Real.sqrt_nonneg _
    have hdisc : 2 * V3.dot k p * (2 * V3.dot k p) - 4 * 1 * (p.normSq - (D ^ 2 + (L / 2) ^ 2)) = (2 * s) * (2 * s) := by
      nlinarith
    unfold hemispherePoint quadratic
    simp only [ofV3, finV, fin_mul, fin_add, fin_sub, fin_neg, ha, hb, hc, hrad, hdisc,
      sqrt_fin_sq (show 0 ≤ 2 * s by linarith)]
    rw [fin_div _ (by norm_num : (2 * 1 : ℝ) ≠ 0), fin_div _ (by norm_num : (2 * 1 : ℝ) ≠ 0)]
    split
    · simp only [fin_mul, fin_add, V3.add, V3.smul]
      congr 2 <;> ring
    · simp only [fin_mul, fin_add, V3.add, V3.smul]
      congr 2 <;> ring

theorem inside_nan {y z : XF} (θ L D : ℝ) : ¬ insideDetector ⟨nan, y, z⟩ θ L D := by
  unfold insideDetector; simp

theorem inside_fin (q : V3) (θ L D : ℝ) : insideDetector (ofV3 q) θ L D ↔
    |q.x - D * Real.sin θ| < L * Real.cos θ / 2 ∧ |q.y| < L / 2 ∧ q.z < 0 := by
  unfold insideDetector ofV3 finV
  simp only [fin_lt, abs_lt]
  constructor
  · rintro ⟨⟨h1, h2⟩, ⟨h3, h4⟩, h5⟩
    exact ⟨⟨by linarith, by linarith⟩, ⟨by linarith, by linarith⟩, h5⟩
  · rintro ⟨⟨h1, h2⟩, ⟨h3, h4⟩, h5⟩
    exact ⟨⟨by linarith, by linarith⟩, ⟨by linarith, by linarith⟩, h5⟩

theorem refracted_unique {n1 n2 : ℝ} (h2 : 0 < n2) {k k2 k3 : V3} (h : RefractedAt n1 n2 ⟨0, 0, -1⟩ k k3)
    (h' : RefractedAt n1 n2 ⟨0, 0, -1⟩ k k2) : k3 = k2 := by
  obtain ⟨u2, d2, c2⟩ := h'
  obtain ⟨u3, d3, c3⟩ := h
  have hc : V3.smul n2 (V3.cross ⟨0, 0, -1⟩ k3) = V3.smul n2 (V3.cross ⟨0, 0, -1⟩ k2) := by rw [c3, c2]
  have h1 := congrArg V3.x hc
  have h3 := congrArg V3.y hc
  simp only [V3.cross, V3.smul] at h1 h3
  have e1 : k3.y = k2.y := by
    have : n2 * k3.y = n2 * k2.y := by linarith
    exact mul_left_cancel₀ h2.ne' this
  have e2 : k3.x = k2.x := by
    have : n2 * k3.x = n2 * k2.x := by linarith
    exact mul_left_cancel₀ h2.ne' this
  have e3 : k3.z = k2.z := by
    simp only [V3.normSq, V3.dot] at u2 u3 d2 d3
    rw [e1, e2] at u3
    have hz3 : k3.z ≤ 0 := by linarith
    have hz2 : k2.z ≤ 0 := by linarith
    have : (k3.z - k2.z) * (k3.z + k2.z) = 0 := by linarith [u2, u3]
    rcases mul_eq_zero.mp this with h | h
    · linarith
    · have : k3.z = 0 := by linarith
      have : k2.z = 0 := by linarith
      linarith
  exact V3.ext e2 e1 e3

/-- "the ray that leaves `plane` in direction `k2` meets the hemisphere of radius `√(D²+(L/2)²)` about the origin strictly
inside the square detector of side `L` at distance `D` and angle `θ` from the sample normal, on the reflection side" -/
def HitsDetector (plane k2 : V3) (θ L D : ℝ) : Prop :=
  ∃ (t : ℝ) (q : V3), 0 ≤ t ∧ q = V3.add plane (V3.smul t k2) ∧ q.normSq = D ^ 2 + (L / 2) ^ 2 ∧
    |q.x - D * Real.sin θ| < L * Real.cos θ / 2 ∧ |q.y| < L / 2 ∧ q.z < 0

/-- position after / direction of event `m` (counted from 1) of trajectory `j` -/
def evRow {nev nt : ℕ} (x y z : Fin nev → Fin nt → ℝ) (indices : Fin nt → ℕ) (j : Fin nt) : V3 :=
  ⟨sel x indices j, sel y indices j, sel z indices j⟩

/-- C26.  The result for a trajectory is its exit event or 0.  For an exit event with a unit direction not parallel to
the film, a detector angle below 90° and an exit point inside the detection hemisphere, the event is kept exactly when
the direction is not normal, is not totally internally reflected, and the refracted ray hits the detector. -/
theorem C26_detected_iff {nev nt : ℕ} (indices : Fin nt → ℕ) (px py pz : Fin (nev + 1) → Fin nt → ℝ)
    (kx ky kz : Fin nev → Fin nt → ℝ) {θ L D ns nm : ℝ} (hs : 0 < ns) (hm : 0 < nm) (hθ : θ < Real.pi / 2) (j : Fin nt)
    (hj : 0 < indices j) (hk : (evRow kx ky kz indices j).normSq = 1) (hz : (evRow kx ky kz indices j).z ≠ 0) :
    (calcIndicesDetected indices px py pz kx ky kz θ L D ns nm j = 0 ∨
      calcIndicesDetected indices px py pz kx ky kz θ L D ns nm j = indices j) ∧
    ∀ (k p : V3), k = evRow kx ky kz indices j →
      p = evRow (fun e => px e.succ) (fun e => py e.succ) (fun e => pz e.succ) indices j →
      ∀ plane : V3, plane.z = 0 → (∃ t, plane = V3.add p (V3.smul t k)) → plane.normSq < D ^ 2 + (L / 2) ^ 2 →
      (calcIndicesDetected indices px py pz kx ky kz θ L D ns nm j = indices j ↔
        (k.x ≠ 0 ∨ k.y ≠ 0) ∧ ∃ k2 : V3, RefractedAt ns nm ⟨0, 0, -1⟩ ⟨k.x, k.y, -|k.z|⟩ k2 ∧
          HitsDetector plane k2 θ L D) := by
  constructor
  · unfold calcIndicesDetected
    simp only
    split
    · exact Or.inr rfl
    · exact Or.inl rfl
  rintro k p rfl rfl plane hpz ⟨t0, hpt⟩ hpin
  set k := evRow kx ky kz indices j with hkdef
  set p := evRow (fun e => px e.succ) (fun e => py e.succ) (fun e => pz e.succ) indices j with hpdef
  have hcalc : calcIndicesDetected indices px py pz kx ky kz θ L D ns nm j =
      if insideDetector (hemispherePoint (calcRefractedDirection (ofV3 k) (ofV3 p) ns nm).1
        (calcRefractedDirection (ofV3 k) (ofV3 p) ns nm).2 θ L D) θ L D then indices j else 0 := rfl
  rw [hcalc]
  have hiff : ∀ P : Prop, ((if P then indices j else 0) = indices j) ↔ P := by
    intro P
    by_cases hP : P
    · simp [hP]
    · simp [hP]; omega
  rw [hiff]
  have hk' : k.x * k.x + k.y * k.y + k.z * k.z = 1 := hk
  have hnan : ∀ pl : XV, ¬ insideDetector (hemispherePoint ⟨nan, nan, nan⟩ pl θ L D) θ L D := by
    intro pl
    have : hemispherePoint ⟨nan, nan, nan⟩ pl θ L D = ⟨nan, nan, nan⟩ := by
      unfold hemispherePoint quadratic; simp
    rw [this]
    exact inside_nan θ L D
  by_cases hxy : k.x ≠ 0 ∨ k.y ≠ 0
  swap
  · push Not at hxy
    rw [C25_film_refraction_nan hs hm hk (Or.inl hxy)]
    constructor
    · intro h; exact absurd h (hnan _)
    · rintro ⟨h, -⟩
      rcases h with h | h
      · exact absurd hxy.1 h
      · exact absurd hxy.2 h
  by_cases hcrit : ns * Real.sqrt (k.x ^ 2 + k.y ^ 2) ≤ nm
  swap
  · push Not at hcrit
    rw [C25_film_refraction_nan hs hm hk (Or.inr hcrit)]
    constructor
    · intro h; exact absurd h (hnan _)
    · rintro ⟨-, k2, ⟨hu, -, hcr⟩, -⟩
      exfalso
      have h1 := congrArg V3.x hcr
      have h2 := congrArg V3.y hcr
      simp only [V3.cross, V3.smul] at h1 h2
      have e1 : nm * k2.y = ns * k.y := by linarith
      have e2 : nm * k2.x = ns * k.x := by linarith
      have hle : k2.x * k2.x + k2.y * k2.y ≤ 1 := by
        have : k2.x * k2.x + k2.y * k2.y + k2.z * k2.z = 1 := hu
        nlinarith [mul_self_nonneg k2.z]
      have hsq : (ns * Real.sqrt (k.x ^ 2 + k.y ^ 2)) ^ 2 ≤ nm ^ 2 := by
        rw [mul_pow, Real.sq_sqrt (by positivity)]
        have : ns ^ 2 * (k.x ^ 2 + k.y ^ 2) = nm ^ 2 * (k2.x * k2.x + k2.y * k2.y) := by
          have a1 : (nm * k2.y) ^ 2 = (ns * k.y) ^ 2 := by rw [e1]
          have a2 : (nm * k2.x) ^ 2 = (ns * k.x) ^ 2 := by rw [e2]
          nlinarith
        rw [this]
        nlinarith [sq_nonneg nm]
      have := abs_le_of_sq_le_sq hsq hm.le
      rw [abs_of_nonneg (by positivity)] at this
      linarith
  obtain ⟨k2, pl, hcd, href, hplz, t1, hplt⟩ := C25_film_refraction (p := p) hs hm hk hz hxy hcrit
  have hpl : pl = plane := by
    have ht : t0 = t1 := by
      have a := congrArg V3.z hpt
      have b := congrArg V3.z hplt
      rw [hpz] at a
      rw [hplz] at b
      simp only [V3.add, V3.smul] at a b
      have : (t0 - t1) * k.z = 0 := by linarith
      have := (mul_eq_zero.mp this).resolve_right hz
      linarith
    rw [hpt, hplt, ht]
  subst hpl
  rw [hcd]
  have hnorm : ∀ t : ℝ, (V3.add pl (V3.smul t k2)).normSq = pl.normSq + 2 * t * V3.dot k2 pl + t * t := by
    intro t
    have : (V3.add pl (V3.smul t k2)).normSq = pl.normSq + 2 * t * V3.dot k2 pl + t * t * k2.normSq := by
      simp only [V3.normSq, V3.dot, V3.add, V3.smul]; ring
    rw [this, href.1, mul_one]
  rcases hemisphere_fin (p := pl) href.1 θ L D with ⟨-, hlt⟩ | ⟨s, hs0, hss, hh⟩
  · exfalso
    nlinarith [sq_nonneg (V3.dot k2 pl)]
  · rw [hh, inside_fin, if_pos hθ]
    have hsb : |V3.dot k2 pl| < s := by
      apply abs_lt_of_sq_lt_sq _ hs0
      nlinarith
    have hsb' := abs_lt.mp hsb
    constructor
    · intro h
      refine ⟨hxy, k2, href, _, _, ?_, rfl, ?_, h⟩
      · linarith [hsb'.2]
      · rw [hnorm]; nlinarith
    · rintro ⟨-, k3, href3, t, q, ht, hq, hqn, hins⟩
      -- the refracted direction is unique
      have hk3 : k3 = k2 := refracted_unique hm href3 href
      subst hk3
      have hroot : (t - (-V3.dot k3 pl + s)) * (t - (-V3.dot k3 pl - s)) = 0 := by
        rw [hq, hnorm] at hqn
        linear_combination hqn - hss
      have htt : t = -V3.dot k3 pl + s := by
        rcases mul_eq_zero.mp hroot with h | h
        · linarith
        · exfalso
          linarith [hsb'.1]
      rw [← htt, ← hq]
      exact hins

/-- Non-vacuity of C26: direction (7/25, 0, -24/25) from the origin in an index-matched film hits a detector of side 6 at
distance 4. -/
example : RefractedAt 1 1 ⟨0, 0, -1⟩ ⟨7 / 25, 0, -|(-24 / 25 : ℝ)|⟩ ⟨7 / 25, 0, -24 / 25⟩ ∧
    HitsDetector ⟨0, 0, 0⟩ ⟨7 / 25, 0, -24 / 25⟩ 0 6 4 := by
  have habs : |(-24 / 25 : ℝ)| = 24 / 25 := by norm_num [abs_of_neg]
  rw [habs]
  refine ⟨⟨by norm_num [V3.normSq, V3.dot], by norm_num [V3.dot], ?_⟩, 5, ⟨7 / 5, 0, -24 / 5⟩, by norm_num, ?_, ?_, ?_, ?_, ?_⟩
  · ext <;> norm_num [V3.cross, V3.smul]
  · ext <;> norm_num [V3.add, V3.smul]
  · norm_num [V3.normSq, V3.dot]
  all_goals norm_num [abs_lt]

/-- C26, larger detectors.  For a photon that leaves the film at the centre of the detection hemisphere, a detector on the
sample normal that detects it still detects it when its side is enlarged. -/
theorem C26_larger_detector {nev nt : ℕ} (indices : Fin nt → ℕ) (px py pz : Fin (nev + 1) → Fin nt → ℝ)
    (kx ky kz : Fin nev → Fin nt → ℝ) {L L' D ns nm : ℝ} (hs : 0 < ns) (hm : 0 < nm) (hL : 0 < L) (hLL : L ≤ L') (hD : 0 < D)
    (j : Fin nt) (hj : 0 < indices j) (hk : (evRow kx ky kz indices j).normSq = 1)
    (hz : (evRow kx ky kz indices j).z ≠ 0)
    (hc : ∃ t, V3.zero = V3.add (evRow (fun e => px e.succ) (fun e => py e.succ) (fun e => pz e.succ) indices j)
      (V3.smul t (evRow kx ky kz indices j)))
    (hdet : calcIndicesDetected indices px py pz kx ky kz 0 L D ns nm j = indices j) :
    calcIndicesDetected indices px py pz kx ky kz 0 L' D ns nm j = indices j := by
  have hpi : (0 : ℝ) < Real.pi / 2 := by positivity
  have hz0 : (V3.zero).normSq = 0 := by simp [V3.normSq, V3.dot, V3.zero]
  have h1 := ((C26_detected_iff indices px py pz kx ky kz (L := L) (D := D) hs hm hpi j hj hk hz).2 _ _ rfl rfl V3.zero rfl hc
    (by rw [hz0]; positivity)).mp hdet
  have hL' : 0 < L' := lt_of_lt_of_le hL hLL
  refine ((C26_detected_iff indices px py pz kx ky kz (L := L') (D := D) hs hm hpi j hj hk hz).2 _ _ rfl rfl V3.zero rfl hc
    (by rw [hz0]; positivity)).mpr ?_
  obtain ⟨hxy, k2, href, t, q, ht, hq, hqn, hx, hy, hzz⟩ := h1
  refine ⟨hxy, k2, href, ?_⟩
  have hqt : q = V3.smul t k2 := by rw [hq]; ext <;> simp [V3.add, V3.smul, V3.zero]
  have htt : t * t = D ^ 2 + (L / 2) ^ 2 := by
    rw [← hqn, hqt, smul_normSq, href.1, mul_one]
  set r := Real.sqrt (D ^ 2 + (L' / 2) ^ 2) with hr
  have hr0 : 0 < r := Real.sqrt_pos.mpr (by positivity)
  have hrr : r * r = D ^ 2 + (L' / 2) ^ 2 := Real.mul_self_sqrt (by positivity)
  have htpos : 0 < t := by
    rcases ht.lt_or_eq with h | h
    · exact h
    · rw [← h] at htt
      have : 0 < D ^ 2 + (L / 2) ^ 2 := by positivity
      linarith
  -- scaling from `t` to `r` multiplies lengths by less than `L'/L`
  have hkey : ∀ c : ℝ, |t * c| < L / 2 → |r * c| < L' / 2 := by
    intro c hcl
    apply abs_lt_of_sq_lt_sq _ (by positivity)
    have h2 : (t * c) ^ 2 < (L / 2) ^ 2 := by
      have := abs_lt.mp hcl
      nlinarith
    have h3 : t * t * c ^ 2 < (L / 2) ^ 2 := by nlinarith
    rw [htt] at h3
    have h4 : (r * c) ^ 2 = (D ^ 2 + (L' / 2) ^ 2) * c ^ 2 := by rw [← hrr]; ring
    rw [h4]
    have hA : 0 < D ^ 2 + (L / 2) ^ 2 := by positivity
    have h5 : c ^ 2 < (L / 2) ^ 2 / (D ^ 2 + (L / 2) ^ 2) := by rw [lt_div_iff₀ hA]; linarith
    have hA' : 0 < D ^ 2 + (L' / 2) ^ 2 := by positivity
    have h6 : (D ^ 2 + (L' / 2) ^ 2) * c ^ 2 < (D ^ 2 + (L' / 2) ^ 2) * ((L / 2) ^ 2 / (D ^ 2 + (L / 2) ^ 2)) :=
      mul_lt_mul_of_pos_left h5 hA'
    refine lt_of_lt_of_le h6 ?_
    rw [mul_div_assoc', div_le_iff₀ hA]
    have : D ^ 2 * L ^ 2 ≤ D ^ 2 * L' ^ 2 := by
      apply mul_le_mul_of_nonneg_left _ (sq_nonneg D)
      nlinarith
    nlinarith
  rw [hqt] at hx hy hzz
  simp only [V3.smul, Real.sin_zero, Real.cos_zero, mul_zero, sub_zero, mul_one] at hx hy hzz
  refine ⟨r, V3.smul r k2, hr0.le, ?_, ?_, ?_, hkey _ hy, ?_⟩
  · ext <;> simp [V3.add, V3.smul, V3.zero]
  · rw [smul_normSq, href.1, mul_one, hrr]
  · simp only [V3.smul, Real.sin_zero, Real.cos_zero, mul_zero, sub_zero, mul_one]
    exact hkey _ hx
  · have : k2.z < 0 := by
      by_contra h
      push Not at h
      have : 0 ≤ t * k2.z := by positivity
      linarith
    simp only [V3.smul]
    exact mul_neg_of_pos_of_neg hr0 this

/-! ## C27 -/

/-- C27, film.  The angle for a trajectory depends only on the size of the z component of its direction at its event: it is
the angle in [0, π/2] whose cosine is `|kz|` (for a unit direction); no event gives π/2; the normal is ±z on the side of
the photon, 0 when there is no event. -/
theorem C27_film_angle {nev nt : ℕ} (indices : Fin nt → ℕ) (kz : Fin nev → Fin nt → ℝ) (j : Fin nt)
    (hk : ∀ e, |kz e j| ≤ 1) :
    ∃ θ nz : ℝ, getAnglesFilmArr indices kz j = (fin θ, finV 0 0 nz) ∧ 0 ≤ θ ∧ θ ≤ Real.pi / 2 ∧
      (∀ m : Fin nev, indices j = m.val + 1 → Real.cos θ = |kz m j| ∧ nz * |kz m j| = kz m j) ∧
      (indices j = 0 → θ = Real.pi / 2 ∧ nz = 0) := by
  have hsel : |sel kz indices j| ≤ 1 := by
    unfold sel
    split
    · exact hk _
    · simp
  refine ⟨Real.arccos |sel kz indices j|, sgn (sel kz indices j), ?_, Real.arccos_nonneg _, ?_, ?_, ?_⟩
  · unfold getAnglesFilmArr getAnglesFilm
    rw [abs_fin, arccos_of_mem (by linarith [abs_nonneg (sel kz indices j)]) hsel]
  · rw [Real.arccos_le_pi_div_two]; exact abs_nonneg _
  · intro m hm
    have : sel kz indices j = kz m j := by
      rw [sel_pos kz indices j (by omega) (by have := m.2; omega)]
      congr 1
      apply Fin.ext
      simp only
      omega
    rw [this]
    refine ⟨Real.cos_arccos (by linarith [abs_nonneg (kz m j)]) (hk m), ?_⟩
    unfold sgn
    rcases lt_trichotomy (kz m j) 0 with h | h | h
    · rw [if_neg (by linarith), if_pos h, abs_of_neg h]; ring
    · rw [h]; simp
    · rw [if_pos h, abs_of_pos h]; ring
  · intro h
    rw [sel_zero kz indices j h]
    simp [sgn]

/-- C27, the two sides of the film are alike: reversing the z direction does not change the angle. -/
theorem C27_film_angle_even {nev nt : ℕ} (indices : Fin nt → ℕ) (kz : Fin nev → Fin nt → ℝ) (j : Fin nt) :
    (getAnglesFilmArr indices (fun e i => -kz e i) j).1 = (getAnglesFilmArr indices kz j).1 := by
  unfold getAnglesFilmArr getAnglesFilm
  have : sel (fun e i => -kz e i) indices j = -sel kz indices j := by
    unfold sel
    split <;> simp
  rw [this]
  simp

/-- C27, sphere.  A trajectory without event (whose selected positions are zero) gets the angle π/2 and a zero normal. -/
theorem C27_sphere_no_event (R : ℝ) (hR : 0 < R) :
    getAnglesSphere (ofV3 V3.zero) (ofV3 V3.zero) R = (fin (Real.pi / 2), ofV3 V3.zero) := by
  unfold getAnglesSphere
  rw [infToLarge_id (bounded_of_normSq hR (by simp [V3.normSq, V3.dot, V3.zero]; positivity))
    (bounded_of_normSq hR (by simp [V3.normSq, V3.dot, V3.zero]; positivity))]
  simp only
  rw [C21_sphere_miss (Or.inl rfl)]
  have h0 : ofV3 V3.zero = finV 0 0 0 := rfl
  simp only [h0, normalizeCol_zero, nan_mul, nan_add, nanToNum_nan, nanToNumV]
  rw [arccos_of_mem (by norm_num) (by norm_num), Real.arccos_zero]
  rfl

/-- Non-vacuity of C27. -/
example : ∀ e : Fin 1, |(fun (_ : Fin 1) (_ : Fin 1) => (-1 / 2 : ℝ)) e 0| ≤ 1 := by
  intro e; norm_num [abs_le]

/-! ## C28 -/

/-- Is trajectory `j` counted as leaving forwards (its angle inside the sample is below the cutoff)?  Trajectories that
are not transmitted have angle π/2. -/
noncomputable def forwardAngle {nev nt : ℕ} (kz : Fin nev → Fin nt → ℝ) (ti : Fin nt → ℕ) (j : Fin nt) : ℝ :=
  if h : 0 < ti j ∧ ti j - 1 < nev then Real.arccos |kz ⟨ti j - 1, h.2⟩ j| else Real.pi / 2

theorem haze_eq {nev nt : ℕ} (kz : Fin nev → Fin nt → ℝ) (hk : ∀ e j, |kz e j| ≤ 1) (tr : Fin nt → ℝ) (T : ℝ)
    (hT : 0 < T) (ti : Fin nt → ℕ) (cut : ℝ) :
    calcHaze kz tr T ti cut = fin ((T - ∑ j, if forwardAngle kz ti j < cut then tr j else 0) / T) := by
  unfold calcHaze
  simp only
  rw [fin_div _ hT.ne']
  congr 3
  apply Finset.sum_congr rfl
  intro j _
  have : XF.arccos (XF.abs (fin (sel kz ti j))) = fin (forwardAngle kz ti j) := by
    unfold forwardAngle sel
    split
    · next h =>
      rw [abs_fin, arccos_of_mem (by linarith [abs_nonneg (kz ⟨ti j - 1, h.2⟩ j)]) (hk _ _)]
    · rw [abs_fin, abs_zero, arccos_of_mem (by norm_num) (by norm_num), Real.arccos_zero]
  have hi : (XF.arccos (XF.abs (fin (sel kz ti j))) < fin cut) ↔ forwardAngle kz ti j < cut := by rw [this, fin_lt]
  by_cases h : forwardAngle kz ti j < cut
  · rw [if_pos (hi.mpr h), if_pos h]
  · rw [if_neg (fun h' => h (hi.mp h')), if_neg h]

/-- C28.  For non-negative per-trajectory transmittances that add up to the positive transmittance, haze is a fraction,
does not increase with the cutoff angle, is 0 when everything leaves below the cutoff and 1 when nothing does. -/
theorem C28_haze_fraction {nev nt : ℕ} (kz : Fin nev → Fin nt → ℝ) (hk : ∀ e j, |kz e j| ≤ 1) (tr : Fin nt → ℝ)
    (htr : ∀ j, 0 ≤ tr j) {T : ℝ} (hT : 0 < T) (hsum : ∑ j, tr j = T) (ti : Fin nt → ℕ) (cut : ℝ) :
    ∃ h : ℝ, calcHaze kz tr T ti cut = fin h ∧ IsFraction h ∧
      (∀ cut' h', cut ≤ cut' → calcHaze kz tr T ti cut' = fin h' → h' ≤ h) ∧
      ((∀ j, 0 < tr j → forwardAngle kz ti j < cut) → h = 0) ∧
      ((∀ j, 0 < tr j → cut ≤ forwardAngle kz ti j) → h = 1) := by
  refine ⟨_, haze_eq kz hk tr T hT ti cut, ⟨?_, ?_⟩, ?_, ?_, ?_⟩
  · apply div_nonneg _ hT.le
    rw [sub_nonneg, ← hsum]
    apply Finset.sum_le_sum
    intro j _
    split
    · exact le_rfl
    · exact htr j
  · rw [div_le_one hT]
    have : 0 ≤ ∑ j, if forwardAngle kz ti j < cut then tr j else 0 := by
      apply Finset.sum_nonneg
      intro j _
      split
      · exact htr j
      · exact le_rfl
    linarith
  · intro cut' h' hc hh
    rw [haze_eq kz hk tr T hT ti cut', fin_inj] at hh
    rw [← hh]
    apply div_le_div_of_nonneg_right _ hT.le
    apply sub_le_sub_left
    apply Finset.sum_le_sum
    intro j _
    by_cases h1 : forwardAngle kz ti j < cut
    · rw [if_pos h1, if_pos (lt_of_lt_of_le h1 hc)]
    · rw [if_neg h1]
      split
      · exact htr j
      · exact le_rfl
  · intro hall
    rw [div_eq_zero_iff]
    left
    rw [sub_eq_zero, ← hsum]
    apply Finset.sum_congr rfl
    intro j _
    rcases (htr j).lt_or_eq with h | h
    · rw [if_pos (hall j h)]
    · rw [← h]; simp
  · intro hall
    have : (∑ j, if forwardAngle kz ti j < cut then tr j else 0) = 0 := by
      apply Finset.sum_eq_zero
      intro j _
      rcases (htr j).lt_or_eq with h | h
      · rw [if_neg (not_lt.mpr (hall j h))]
      · rw [← h]; simp
    rw [this, sub_zero, div_self hT.ne']

/-- Non-vacuity of C28. -/
example : (∀ j : Fin 2, 0 ≤ (fun _ => (1 / 4 : ℝ)) j) ∧ ∑ j : Fin 2, (fun _ => (1 / 4 : ℝ)) j = 1 / 2 := by
  constructor
  · intro j; norm_num
  · norm_num

/-! ## C29 -/

/-- C29.  The renormalised reflectance is linear in the reflectance, does not change when distance and side are scaled
together, equals the reflectance when the hemisphere's area times cos(det_theta) equals the detector's area, and vanishes
for a detector at 90°. -/
theorem C29_goniometer {D L θ : ℝ} (hL : L ≠ 0) :
    (∀ R, ∃ v, normalizeReflGoniometer R D L θ = fin v ∧
      v * L ^ 2 = 2 * Real.pi * D ^ 2 * Real.cos θ * R) ∧
    (∀ a b R S v w, normalizeReflGoniometer R D L θ = fin v → normalizeReflGoniometer S D L θ = fin w →
      normalizeReflGoniometer (a * R + b * S) D L θ = fin (a * v + b * w)) ∧
    (∀ c R, c ≠ 0 → normalizeReflGoniometer R (c * D) (c * L) θ = normalizeReflGoniometer R D L θ) ∧
    (2 * Real.pi * D ^ 2 * Real.cos θ = L ^ 2 → ∀ R, normalizeReflGoniometer R D L θ = fin R) := by
  have hL2 : L ^ 2 ≠ 0 := pow_ne_zero 2 hL
  have e : ∀ R, normalizeReflGoniometer R D L θ = fin (2 * Real.pi * D ^ 2 / L ^ 2 * Real.cos θ * R) := by
    intro R
    unfold normalizeReflGoniometer
    simp only [fin_div _ hL2, cos_fin, fin_mul]
  refine ⟨?_, ?_, ?_, ?_⟩
  · intro R
    refine ⟨_, e R, ?_⟩
    field_simp
  · intro a b R S v w hv hw
    rw [e, fin_inj] at hv hw ⊢
    rw [← hv, ← hw]; ring
  · intro c R hc
    rw [e]
    unfold normalizeReflGoniometer
    have : (c * L) ^ 2 ≠ 0 := pow_ne_zero 2 (mul_ne_zero hc hL)
    simp only [fin_div _ this, cos_fin, fin_mul]
    congr 1
    field_simp
  · intro h R
    rw [e, fin_inj]
    have : 2 * Real.pi * D ^ 2 / L ^ 2 * Real.cos θ = 1 := by
      rw [div_mul_eq_mul_div, h, div_self hL2]
    rw [this, one_mul]

/-- Non-vacuity of C29. -/
example : normalizeReflGoniometer (1 / 10) 1 1 0 = fin (2 * Real.pi / 10) := by
  obtain ⟨v, hv, hvv⟩ := (C29_goniometer (D := 1) (L := 1) (θ := 0) one_ne_zero).1 (1 / 10)
  rw [hv, fin_inj]
  simp at hvv
  linarith

/-! ## C68 -/

/-- C68 is false of the code, in general: whatever the tir event (including 0, "never totally internally reflected"), as
soon as a trajectory's z directions are non-zero, `shift_traj_tir` reverses the z direction of every event after the
first; the tir event has no influence at all. -/
theorem C68_tir_shift_ignores_tir_refuted (z kz : ℕ → ℝ) (h : ∀ i, kz i ≠ 0) (m i : ℕ) :
    (shiftTrajTir z kz m).2 i = if i = 0 then kz 0 else -kz i := by
  unfold shiftTrajTir
  simp only
  have hne : ∀ i, selectTirTraj kz m i ≠ 0 ∧ selectTirTraj kz m i = if i = 0 then kz 0 else -kz i := by
    intro i
    induction i with
    | zero => simp [selectTirTraj, tirInit, h 0]
    | succ i ih =>
      have e : selectTirTraj kz m (i + 1) = -kz (i + 1) := by
        unfold selectTirTraj
        simp only
        rw [if_pos ih.1, if_neg (neg_ne_zero.mpr (h (i + 1)))]
      rw [e]
      exact ⟨neg_ne_zero.mpr (h (i + 1)), by rw [if_neg (Nat.succ_ne_zero i)]⟩
  exact (hne i).2

/-- C68, witness: a trajectory that is never totally internally reflected has its direction reversed at event 2. -/
theorem C68_untouched_trajectory_refuted : ∃ (z kz : ℕ → ℝ), (shiftTrajTir z kz 0).2 1 ≠ kz 1 := by
  refine ⟨fun _ => 1, fun _ => 1, ?_⟩
  rw [C68_tir_shift_ignores_tir_refuted _ _ (fun _ => one_ne_zero)]
  norm_num

/-- C68, the part that holds: the sizes of all z positions and z directions, and the first row of both, are kept. -/
theorem C68_tir_shift_sizes_partial (z kz : ℕ → ℝ) (m i : ℕ) :
    |(shiftTrajTir z kz m).1 i| = |z i| ∧ |(shiftTrajTir z kz m).2 i| = |kz i| ∧
    (shiftTrajTir z kz m).1 0 = z 0 ∧ (shiftTrajTir z kz m).2 0 = kz 0 := by
  have key : ∀ (c : ℕ → ℝ) (i : ℕ), |selectTirTraj c m i| = |c i| := by
    intro c i
    cases i with
    | zero => simp [selectTirTraj, tirInit]
    | succ i =>
      unfold selectTirTraj
      simp only
      by_cases h2 : selectTirTraj c m i ≠ 0
      · rw [if_pos h2]
        split
        · rfl
        · exact abs_neg _
      · rw [if_neg h2]
        unfold tirInit
        rw [if_neg (Nat.succ_ne_zero i)]
        by_cases h3 : 0 < m ∧ m - 1 = i + 1
        · rw [if_pos h3]
          split <;> rfl
        · rw [if_neg h3, if_pos rfl]
  exact ⟨key z i, key kz i, rfl, rfl⟩

/-! ## C69 -/

/-- the coordinate is one of the two infinities -/
def isInf : XF → Prop
  | pinf => True
  | ninf => True
  | _ => False

/-- C69, the part that holds: every coordinate of the second point and the first two coordinates of
the first point are finite after `inf_to_large` unless they were NaN; finite values below 1e20 radii are unchanged. -/
theorem C69_inf_to_large_partial (p0 p1 : XV) (R : ℝ) :
    (¬ isInf (infToLarge p0 p1 R).1.x ∧ ¬ isInf (infToLarge p0 p1 R).1.y ∧ ¬ isInf (infToLarge p0 p1 R).2.x ∧
      ¬ isInf (infToLarge p0 p1 R).2.y ∧ ¬ isInf (infToLarge p0 p1 R).2.z) ∧
    (p0.z ≠ ninf → ¬ isInf (infToLarge p0 p1 R).1.z) ∧
    (∀ q0 q1 : V3, p0 = ofV3 q0 → p1 = ofV3 q1 → Bounded q0 (10 ^ 20 * R) → Bounded q1 (10 ^ 20 * R) →
      infToLarge p0 p1 R = (p0, p1)) := by
  have key : ∀ a : XF, ¬ isInf (clipBoth R a) := by
    intro a
    unfold clipBoth
    cases a with
    | fin r =>
      simp only
      split <;> split <;> simp [isInf]
    | pinf =>
      have h1 : (fin (10 ^ 20 * R) : XF) < pinf := trivial
      simp only [h1, if_true]
      split <;> simp [isInf]
    | ninf =>
      have h1 : ¬ ((fin (10 ^ 20 * R) : XF) < ninf) := fun h => h
      have h2 : (ninf : XF) < fin (-(10 ^ 20) * R) := trivial
      simp only [h1, if_false, h2, if_true]
      simp [isInf]
    | nan =>
      simp [isInf]
  refine ⟨⟨key _, key _, key _, key _, key _⟩, ?_, ?_⟩
  · intro hz
    show ¬ isInf (clipUpper R p0.z)
    unfold clipUpper
    cases h : p0.z with
    | fin r => split <;> simp [isInf]
    | pinf =>
      have h1 : (fin (10 ^ 20 * R) : XF) < pinf := trivial
      rw [if_pos h1]; simp [isInf]
    | ninf => exact absurd h hz
    | nan => simp [isInf]
  · rintro q0 q1 rfl rfl h0 h1
    exact infToLarge_id h0 h1

/-- what `inf_to_large` should make of a coordinate: an infinite one becomes 100 radii on its own side, anything else stays -/
def replaced (R : ℝ) : XF → XF
  | pinf => fin (100 * R)
  | ninf => fin (-(100 * R))
  | a => a

/-- the coordinate is NaN, infinite or of magnitude at most 1e20 radii -/
def ordinary (R : ℝ) : XF → Prop
  | fin r => |r| ≤ 10 ^ 20 * R
  | _ => True

/-- C69, the values: every infinite coordinate, the z of the first point at -inf excepted, becomes 100 radii on the side it
was on, and every other coordinate (NaN or of magnitude at most 1e20 radii) is unchanged. -/
theorem C69_inf_to_large_value_partial (p0 p1 : XV) (R : ℝ) (hR : 0 < R)
    (h0 : ordinary R p0.x ∧ ordinary R p0.y ∧ ordinary R p0.z) (h1 : ordinary R p1.x ∧ ordinary R p1.y ∧ ordinary R p1.z)
    (hz : p0.z ≠ ninf) :
    infToLarge p0 p1 R = (⟨replaced R p0.x, replaced R p0.y, replaced R p0.z⟩,
      ⟨replaced R p1.x, replaced R p1.y, replaced R p1.z⟩) := by
  have hup : ∀ a : XF, a ≠ ninf → ordinary R a → clipUpper R a = replaced R a := by
    intro a ha ho
    cases a with
    | fin r =>
      have h : ¬ ((fin (10 ^ 20 * R) : XF) < fin r) := by rw [fin_lt]; exact not_lt.mpr (abs_le.mp ho).2
      unfold clipUpper; rw [if_neg h]; rfl
    | pinf =>
      have h : (fin (10 ^ 20 * R) : XF) < pinf := trivial
      unfold clipUpper; rw [if_pos h]; rfl
    | ninf => exact absurd rfl ha
    | nan =>
      have h : ¬ ((fin (10 ^ 20 * R) : XF) < nan) := fun h => h
      unfold clipUpper; rw [if_neg h]; rfl
  have hboth : ∀ a : XF, ordinary R a → clipBoth R a = replaced R a := by
    intro a ho
    have hdef : clipBoth R a = if clipUpper R a < fin (-(10 ^ 20) * R) then fin (-100 * R) else clipUpper R a := rfl
    rw [hdef]
    cases a with
    | ninf =>
      have h : clipUpper R ninf = ninf := if_neg (fun h : (fin (10 ^ 20 * R) : XF) < ninf => h)
      have h2 : (ninf : XF) < fin (-(10 ^ 20) * R) := trivial
      rw [h, if_pos h2]
      show fin (-100 * R) = fin (-(100 * R))
      rw [fin_inj]; ring
    | fin r =>
      rw [hup _ (by intro h; cases h) ho]
      have h : ¬ ((fin r : XF) < fin (-(10 ^ 20) * R)) := by
        rw [fin_lt]; have := (abs_le.mp ho).1; linarith
      exact if_neg h
    | pinf =>
      rw [hup _ (by intro h; cases h) ho]
      have h : ¬ ((fin (100 * R) : XF) < fin (-(10 ^ 20) * R)) := by
        rw [fin_lt]; nlinarith
      exact if_neg h
    | nan =>
      rw [hup _ (by intro h; cases h) ho]
      exact if_neg (fun h : (nan : XF) < fin (-(10 ^ 20) * R) => h)
  unfold infToLarge
  rw [hboth _ h0.1, hboth _ h0.2.1, hup _ hz h0.2.2, hboth _ h1.1, hboth _ h1.2.1, hboth _ h1.2.2]

/-- C69 is false of the code: a first point with z = -inf keeps it. -/
theorem C69_inf_to_large_refuted (R : ℝ) :
    (infToLarge ⟨fin 0, fin 0, ninf⟩ ⟨fin 0, fin 0, fin 0⟩ R).1.z = ninf := by
  show clipUpper R ninf = ninf
  unfold clipUpper
  exact if_neg (fun h : (fin (10 ^ 20 * R) : XF) < ninf => h)

/-- Non-vacuity of C69. -/
example : (infToLarge ⟨pinf, fin 1, fin 1⟩ ⟨ninf, fin 1, fin 1⟩ 1).2.x = fin (-100) := by
  show clipBoth 1 ninf = _
  have h1 : ¬ ((fin (10 ^ 20 * 1) : XF) < ninf) := fun h => h
  have h2 : (ninf : XF) < fin (-(10 ^ 20) * 1) := trivial
  unfold clipBoth
  simp only [h1, if_false, h2, if_true]
  norm_num

/-! ## C70 -/

/-- A photon entering a sphere of radius `R` at the point `p` of its surface: `k0` is the unit direction in the medium,
pointing inwards, `k1` the refracted unit direction in the sample.  The inward normal is `-p/R`. -/
structure SphereEntry (R nm ns : ℝ) (p k0 k1 : V3) : Prop where
  radius : 0 < R
  surface : p.normSq = R * R
  unit0 : k0.normSq = 1
  inward : 0 ≤ V3.dot k0 (V3.smul (-1 / R) p)
  refracted : RefractedAt nm ns (V3.smul (-1 / R) p) k0 k1

theorem SphereEntry.angle {R nm ns : ℝ} {p k0 k1 : V3} (h : SphereEntry R nm ns p k0 k1) :
    (getAnglesSphereInit (ofV3 p) (ofV3 k1)).1 = fin (Real.arccos (V3.dot (V3.smul (-1 / R) p) k1)) := by
  have hR := h.radius
  have hu : (V3.smul (-1 / R) p).normSq = 1 := by rw [smul_normSq, h.surface]; field_simp
  have hne : V3.smul (-1) p ≠ V3.zero := by
    intro hz
    have : (V3.smul (-1) p).normSq = 0 := by rw [hz]; simp [V3.normSq, V3.dot, V3.zero]
    rw [smul_normSq, h.surface] at this
    nlinarith
  have hnorm : (V3.smul (-1) p).norm = R := norm_eq_of_normSq hR.le (by rw [smul_normSq, h.surface]; ring)
  have hn := normalizeCol_fin hne
  rw [hnorm] at hn
  have e1 : V3.smul (1 / R) (V3.smul (-1) p) = V3.smul (-1 / R) p := by
    ext <;> simp only [V3.smul] <;> ring
  rw [e1] at hn
  have e0 : (⟨-(ofV3 p).x, -(ofV3 p).y, -(ofV3 p).z⟩ : XV) = ofV3 (V3.smul (-1) p) := by
    simp only [ofV3, finV, V3.smul, fin_neg]
    congr 2 <;> ring
  have hd := dot_mem hu h.refracted.1
  unfold getAnglesSphereInit
  rw [e0, hn]
  simp only
  have e2 : (ofV3 (V3.smul (-1 / R) p)).x * (ofV3 k1).x + (ofV3 (V3.smul (-1 / R) p)).y * (ofV3 k1).y +
      (ofV3 (V3.smul (-1 / R) p)).z * (ofV3 k1).z = fin (V3.dot (V3.smul (-1 / R) p) k1) := by
    simp [ofV3, finV, V3.dot]
  rw [e2, nanToNum_fin, arccos_of_mem hd.1 hd.2]

/-- C70 is false of the code: for a photon entering a sphere obliquely through an interface with an index difference, the
angle that `calc_refl_trans` uses as the angle of incidence in the medium (when it computes the fraction of light that
enters) is never the angle of incidence: it is the refraction angle inside. -/
theorem C70_sphere_entry_angle_refuted {R nm ns : ℝ} {p k0 k1 : V3} (h : SphereEntry R nm ns p k0 k1) (hm : 0 < nm)
    (hs : 0 < ns) (hne : nm ≠ ns) (hobl : V3.cross (V3.smul (-1 / R) p) k0 ≠ V3.zero) :
    (getAnglesSphereInit (ofV3 p) (ofV3 k1)).1 ≠ fin (Real.arccos (V3.dot (V3.smul (-1 / R) p) k0)) := by
  have hR := h.radius
  have hu : (V3.smul (-1 / R) p).normSq = 1 := by rw [smul_normSq, h.surface]; field_simp
  rw [h.angle]
  intro heq
  rw [fin_inj] at heq
  have hsin := congrArg Real.sin heq
  rw [sin_arccos_dot hu h.refracted.1, sin_arccos_dot hu h.unit0] at hsin
  have hcr := congrArg V3.normSq h.refracted.2.2
  rw [smul_normSq, smul_normSq, ← norm_sq', ← norm_sq', hsin] at hcr
  have hp := norm_pos' hobl
  have : ns * ns = nm * nm := by
    have h2 : ns * ns * ((V3.cross (V3.smul (-1 / R) p) k0).norm * (V3.cross (V3.smul (-1 / R) p) k0).norm) =
      nm * nm * ((V3.cross (V3.smul (-1 / R) p) k0).norm * (V3.cross (V3.smul (-1 / R) p) k0).norm) := hcr
    exact mul_right_cancel₀ (mul_pos hp hp).ne' h2
  apply hne
  nlinarith

/-- C70, the part that holds: at an index-matched surface, or at normal incidence, it is the angle of incidence. -/
theorem C70_sphere_entry_angle_partial {R nm ns : ℝ} {p k0 k1 : V3} (h : SphereEntry R nm ns p k0 k1) (hs : 0 < ns)
    (hsp : nm = ns ∨ V3.cross (V3.smul (-1 / R) p) k0 = V3.zero) :
    (getAnglesSphereInit (ofV3 p) (ofV3 k1)).1 = fin (Real.arccos (V3.dot (V3.smul (-1 / R) p) k0)) := by
  have hR := h.radius
  have hu : (V3.smul (-1 / R) p).normSq = 1 := by rw [smul_normSq, h.surface]; field_simp
  rw [h.angle]
  set n := V3.smul (-1 / R) p with hn
  have hcr : V3.cross n k1 = V3.cross n k0 := by
    have hc := h.refracted.2.2
    rw [← hn] at hc
    have hx := congrArg V3.x hc
    have hy := congrArg V3.y hc
    have hz := congrArg V3.z hc
    simp only [V3.smul] at hx hy hz
    rcases hsp with he | he
    · rw [he] at hx hy hz
      exact V3.ext (mul_left_cancel₀ hs.ne' hx) (mul_left_cancel₀ hs.ne' hy) (mul_left_cancel₀ hs.ne' hz)
    · rw [he] at hx hy hz ⊢
      simp only [V3.zero, mul_zero] at hx hy hz ⊢
      exact V3.ext ((mul_eq_zero.mp hx).resolve_left hs.ne') ((mul_eq_zero.mp hy).resolve_left hs.ne')
        ((mul_eq_zero.mp hz).resolve_left hs.ne')
  have h1 := lagrange n k1
  have h0 := lagrange n k0
  rw [hu, h.refracted.1, hcr] at h1
  rw [hu, h.unit0] at h0
  have hd1 : 0 ≤ V3.dot n k1 := by
    have := h.refracted.2.1
    have e : V3.dot k1 n = V3.dot n k1 := by simp only [V3.dot]; ring
    rwa [e] at this
  have hd0 : 0 ≤ V3.dot n k0 := by
    have := h.inward
    have e : V3.dot k0 n = V3.dot n k0 := by simp only [V3.dot]; ring
    rwa [e] at this
  have : V3.dot n k1 = V3.dot n k0 := by
    have : V3.dot n k1 ^ 2 = V3.dot n k0 ^ 2 := by linarith
    exact (pow_left_inj₀ hd1 hd0 two_ne_zero).mp this
  rw [this]

/-- Non-vacuity of C70: entering a unit sphere of index 4/3 from air at (0, 0, -1) with direction (4/5, 0, 3/5). -/
example : SphereEntry 1 1 (4 / 3) ⟨0, 0, -1⟩ ⟨4 / 5, 0, 3 / 5⟩ ⟨3 / 5, 0, 4 / 5⟩ ∧
    V3.cross (V3.smul (-1 / 1) ⟨0, 0, -1⟩) ⟨4 / 5, 0, 3 / 5⟩ ≠ V3.zero := by
  refine ⟨⟨by norm_num, by norm_num [V3.normSq, V3.dot], by norm_num [V3.normSq, V3.dot],
    by norm_num [V3.dot, V3.smul], by norm_num [V3.normSq, V3.dot], by norm_num [V3.dot, V3.smul], ?_⟩, ?_⟩
  · ext <;> norm_num [V3.cross, V3.smul]
  · intro h
    have := congrArg V3.y h
    norm_num [V3.cross, V3.smul, V3.zero] at this

/-- Non-vacuity of C68: a trajectory going forwards all the way has its later directions reversed. -/
example : (shiftTrajTir (fun i => i) (fun _ => 1) 0).2 3 = -1 := by
  rw [C68_tir_shift_ignores_tir_refuted _ _ (fun _ => one_ne_zero)]; norm_num

end Verif.Props
