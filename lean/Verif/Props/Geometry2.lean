import Verif.Props.Geometry

/-!
# Properties of the geometrical helpers of /repo/structcol/detector.py: C24–C29
-/

namespace Verif.Props
open Classical Verif.Spec Verif.Root Verif.Geometry XF

theorem SphereExit.dot_pos {R : ℝ} {p0 p1 k q : V3} (h : SphereExit R p0 p1 k q) :
    0 < V3.dot (V3.smul (1 / R) q) k := by
  obtain ⟨t, ht, hq⟩ := h.crossing
  have hR := h.radius
  have hp0 : p0 = V3.sub q (V3.smul t k) := by
    rw [hq]; ext <;> simp only [V3.add, V3.sub, V3.smul] <;> ring
  have hin := h.inside
  have e : (V3.sub q (V3.smul t k)).normSq = q.normSq - 2 * t * V3.dot q k + t * t * k.normSq := by
    simp only [V3.normSq, V3.dot, V3.sub, V3.smul]; ring
  rw [hp0, e, h.surface, h.unit] at hin
  have hqk : 0 < V3.dot q k := by nlinarith
  have e2 : V3.dot (V3.smul (1 / R) q) k = V3.dot q k / R := by
    simp only [V3.dot, V3.smul]; field_simp
  rw [e2]
  exact div_pos hqk hR

theorem sin_arccos_dot {a b : V3} (ha : a.normSq = 1) (hb : b.normSq = 1) :
    Real.sin (Real.arccos (V3.dot a b)) = (V3.cross a b).norm := by
  rw [Real.sin_arccos]
  unfold V3.norm
  congr 1
  have := lagrange a b
  rw [ha, hb] at this
  linarith

theorem rotateRefract_zero_angle (p u k : V3) : rotateRefract (ofV3 p) (ofV3 u) (ofV3 k) (fin 0) = ofV3 k := by
  rw [rotateRefract_fin, Real.cos_zero, Real.sin_zero]
  congr 1
  ext <;> simp [V3.add, V3.sub, V3.smul]

/-! ## C24 -/

/-- C24, the part that holds: total internal reflection.  The returned value is NaN exactly when the photon is totally
internally reflected at the point where it meets the surface, i.e. when `n_inside sin θ > n_outside` with `sin θ` the
length of (normal × direction). -/
theorem C24_sphere_tir_partial {R : ℝ} {p0 p1 k q : V3} (h : SphereExit R p0 p1 k q) {n1 n2 : ℝ} (h1 : 0 < n1)
    (h2 : 0 < n2) :
    exitKz (ofV3 p0) (ofV3 p1) (ofV3 k) (2 * R) n1 n2 = nan ↔
      n2 < n1 * (V3.cross (V3.smul (1 / R) q) k).norm := by
  rw [h.exitKz_eq]
  simp only
  rw [refraction1_fin h2.ne', sin_arccos_dot h.normal_unit h.unit, abs_of_nonneg (by
    have := norm_nonneg' (V3.cross (V3.smul (1 / R) q) k); positivity)]
  have e : (1 < n1 / n2 * (V3.cross (V3.smul (1 / R) q) k).norm) ↔
      n2 < n1 * (V3.cross (V3.smul (1 / R) q) k).norm := by
    rw [div_mul_eq_mul_div, lt_div_iff₀ h2, one_mul]
  rw [← e]
  split
  · next hlt => exact ⟨fun _ => hlt, fun _ => rotateRefract_nan _ _ _⟩
  · next hlt =>
    rw [fin_sub, rotateRefract_fin]
    exact ⟨fun h' => absurd h' (fin_ne_nan _), fun h' => absurd h' hlt⟩

/-- C24, the part that holds: no refraction.  With equal indices, or at normal incidence, the direction is unchanged (and
that is what Snell's law gives). -/
theorem C24_sphere_straight_partial {R : ℝ} {p0 p1 k q : V3} (h : SphereExit R p0 p1 k q) {n1 n2 : ℝ} (_h1 : 0 < n1)
    (h2 : 0 < n2) (hs : n1 = n2 ∨ V3.cross (V3.smul (1 / R) q) k = V3.zero) :
    exitKz (ofV3 p0) (ofV3 p1) (ofV3 k) (2 * R) n1 n2 = fin k.z ∧ RefractedAt n1 n2 (V3.smul (1 / R) q) k k := by
  have hpos := h.dot_pos
  have hθ : Real.arccos (V3.dot (V3.smul (1 / R) q) k) ≤ Real.pi / 2 := by
    rw [Real.arccos_le_pi_div_two]; exact hpos.le
  have hθ0 := Real.arccos_nonneg (V3.dot (V3.smul (1 / R) q) k)
  constructor
  · rw [h.exitKz_eq]
    simp only
    have hr : refraction1 (fin (Real.arccos (V3.dot (V3.smul (1 / R) q) k))) (fin n1) (fin n2) =
        fin (Real.arccos (V3.dot (V3.smul (1 / R) q) k)) := by
      rw [refraction1_fin h2.ne']
      rcases hs with hs | hs
      · subst hs
        rw [div_self h2.ne', one_mul, if_neg (not_lt.mpr (Real.abs_sin_le_one _)),
          Real.arcsin_sin (by linarith [Real.pi_pos]) hθ]
      · have : Real.sin (Real.arccos (V3.dot (V3.smul (1 / R) q) k)) = 0 := by
          rw [sin_arccos_dot h.normal_unit h.unit, hs]
          simp [V3.norm, V3.normSq, V3.dot, V3.zero]
        rw [this, mul_zero, abs_zero, if_neg (by norm_num), Real.arcsin_zero]
        congr 1
        have h0 := Real.arcsin_sin (show -(Real.pi / 2) ≤ Real.arccos (V3.dot (V3.smul (1 / R) q) k) by
          linarith [Real.pi_pos]) hθ
        rw [this, Real.arcsin_zero] at h0
        exact h0
    rw [hr, fin_sub, sub_self, rotateRefract_zero_angle]
    rfl
  · refine ⟨h.unit, ?_, ?_⟩
    · have : V3.dot k (V3.smul (1 / R) q) = V3.dot (V3.smul (1 / R) q) k := by simp only [V3.dot]; ring
      rw [this]; exact hpos.le
    · rcases hs with hs | hs
      · rw [hs]
      · rw [hs]; ext <;> simp [V3.smul, V3.zero]

/-- the exit used as witness: a sphere of radius 50 with index 4/3 in air, left near its far pole -/
theorem witness_exit : SphereExit 50 ⟨-3, 0, 46⟩ ⟨3, 0, 54⟩ ⟨3 / 5, 0, 4 / 5⟩ ⟨0, 0, 50⟩ where
  radius := by norm_num
  inside := by norm_num [V3.normSq, V3.dot]
  outside := by norm_num [V3.normSq, V3.dot]
  bounded := by norm_num [Bounded, abs_le]
  unit := by norm_num [V3.normSq, V3.dot]
  step := ⟨10, by norm_num, by ext <;> norm_num [V3.sub, V3.smul]⟩
  crossing := ⟨5, by norm_num, by ext <;> norm_num [V3.add, V3.smul]⟩
  surface := by norm_num [V3.normSq, V3.dot]

/-- C24 is false of the code: a photon that leaves a sphere of radius 50 (index 4/3, in air) at its far pole, at a
direction below the critical angle, so that Snell's law sends it on towards +z (z component 3/5), is given a *negative*
z component (-257/625) by `exit_kz`, and is therefore counted as reflected.  (The rotation axis passed to
`rotate_refract` is not a unit vector and the angle has the wrong sign.) -/
theorem C24_sphere_snell_refuted :
    ∃ (R n1 n2 : ℝ) (p0 p1 k q k2 : V3), 0 < n2 ∧ n2 < n1 ∧ SphereExit R p0 p1 k q ∧
      RefractedAt n1 n2 (V3.smul (1 / R) q) k k2 ∧ k2.z = 3 / 5 ∧
      exitKz (ofV3 p0) (ofV3 p1) (ofV3 k) (2 * R) n1 n2 = fin (-257 / 625) := by
  refine ⟨50, 4 / 3, 1, ⟨-3, 0, 46⟩, ⟨3, 0, 54⟩, ⟨3 / 5, 0, 4 / 5⟩, ⟨0, 0, 50⟩, ⟨4 / 5, 0, 3 / 5⟩, by norm_num, by norm_num,
    witness_exit, ⟨?_, ?_, ?_⟩, rfl, ?_⟩
  · norm_num [V3.normSq, V3.dot]
  · norm_num [V3.dot, V3.smul]
  · ext <;> norm_num [V3.cross, V3.smul]
  · rw [witness_exit.exitKz_eq]
    simp only
    have hn : V3.smul (1 / 50) (⟨0, 0, 50⟩ : V3) = ⟨0, 0, 1⟩ := by ext <;> norm_num [V3.smul]
    rw [hn]
    have hdot : V3.dot (⟨0, 0, 1⟩ : V3) ⟨3 / 5, 0, 4 / 5⟩ = 4 / 5 := by norm_num [V3.dot]
    rw [hdot]
    have hsin : Real.sin (Real.arccos (4 / 5)) = 3 / 5 := by
      rw [Real.sin_arccos, show (1 - (4 / 5 : ℝ) ^ 2) = (3 / 5) ^ 2 by norm_num]
      exact Real.sqrt_sq (by norm_num)
    have hcos : Real.cos (Real.arccos (4 / 5)) = 4 / 5 := Real.cos_arccos (by norm_num) (by norm_num)
    rw [refraction1_fin one_ne_zero, hsin, if_neg (by norm_num), fin_sub, rotateRefract_fin]
    have hs2 : Real.sin (Real.arcsin (4 / 3 / 1 * (3 / 5))) = 4 / 5 := by
      rw [Real.sin_arcsin] <;> norm_num
    have hc2 : Real.cos (Real.arcsin (4 / 3 / 1 * (3 / 5))) = 3 / 5 := by
      rw [Real.cos_arcsin, show (1 - (4 / 3 / 1 * (3 / 5) : ℝ) ^ 2) = (3 / 5) ^ 2 by norm_num]
      exact Real.sqrt_sq (by norm_num)
    rw [Real.cos_sub, Real.sin_sub, hs2, hc2, hsin, hcos]
    simp only [ofV3, finV, V3.add, V3.sub, V3.smul, V3.cross, V3.dot, V3.normSq]
    norm_num

/-- Non-vacuity of the C24 partial theorems: `witness_exit` is such an exit; here one at normal incidence. -/
example : SphereExit 1 ⟨0, 0, 0⟩ ⟨0, 0, 2⟩ ⟨0, 0, 1⟩ ⟨0, 0, 1⟩ ∧
    V3.cross (V3.smul (1 / 1) (⟨0, 0, 1⟩ : V3)) ⟨0, 0, 1⟩ = V3.zero := by
  refine ⟨⟨by norm_num, by norm_num [V3.normSq, V3.dot], by norm_num [V3.normSq, V3.dot], by norm_num [Bounded],
    by norm_num [V3.normSq, V3.dot], ⟨2, by norm_num, by ext <;> norm_num [V3.sub, V3.smul]⟩,
    ⟨1, by norm_num, by ext <;> norm_num [V3.add, V3.smul]⟩, by norm_num [V3.normSq, V3.dot]⟩, ?_⟩
  ext <;> norm_num [V3.cross, V3.smul, V3.zero]

/-! ## C25 -/

/-- C25.  For a unit direction that is neither normal nor parallel to the film and is not totally internally reflected,
`calc_refracted_direction` returns the direction refracted from index `n1` into `n2` at the surface facing `-z`, of the
ray whose z component is folded to `-|kz|`; and the returned point is where the original ray crosses the plane z = 0. -/
theorem C25_film_refraction {k p : V3} {n1 n2 : ℝ} (h1 : 0 < n1) (h2 : 0 < n2) (hk : k.normSq = 1) (hz : k.z ≠ 0)
    (hxy : k.x ≠ 0 ∨ k.y ≠ 0) (hcrit : n1 * Real.sqrt (k.x ^ 2 + k.y ^ 2) ≤ n2) :
    ∃ k2 plane : V3, calcRefractedDirection (ofV3 k) (ofV3 p) n1 n2 = (ofV3 k2, ofV3 plane) ∧
      RefractedAt n1 n2 ⟨0, 0, -1⟩ ⟨k.x, k.y, -|k.z|⟩ k2 ∧
      plane.z = 0 ∧ ∃ t : ℝ, plane = V3.add p (V3.smul t k) := by
  have hk' : k.x * k.x + k.y * k.y + k.z * k.z = 1 := hk
  have hρpos : 0 < k.x ^ 2 + k.y ^ 2 := by
    rcases hxy with h | h
    · have := sq_nonneg k.y; positivity
    · have := sq_nonneg k.x; positivity
  set ρ := Real.sqrt (k.x ^ 2 + k.y ^ 2) with hρ
  have hρ0 : 0 < ρ := Real.sqrt_pos.mpr hρpos
  have hρ2 : ρ * ρ = k.x ^ 2 + k.y ^ 2 := Real.mul_self_sqrt hρpos.le
  set c := |k.z| with hc
  have hc0 : 0 < c := abs_pos.mpr hz
  have hc2 : c * c = k.z * k.z := abs_mul_abs_self k.z
  have hc1 : c ≤ 1 := by nlinarith
  have hkz : negatePositive (fin k.z) = (fin (-c) : XF) := by
    unfold negatePositive
    by_cases h : 0 < k.z
    · rw [if_pos ((fin_lt _ _).mpr h), fin_neg, hc, abs_of_pos h]
    · rw [if_neg (fun h' => h ((fin_lt _ _).mp h')), hc, abs_of_nonpos (not_lt.mp h), neg_neg]
  have hu : normalizeCol ⟨fin (-k.y), fin k.x, fin 0⟩ = ofV3 ⟨-k.y / ρ, k.x / ρ, 0⟩ := by
    have hm : magnitude (fin (-k.y)) (fin k.x) (fin 0) = fin ρ := by
      rw [magnitude_fin, hρ]; congr 2; ring
    unfold normalizeCol ofV3 finV
    simp only [hm, fin_div _ hρ0.ne', zero_div]
  have hsin : Real.sin (Real.arccos c) = ρ := by
    rw [Real.sin_arccos, hρ]; congr 1; nlinarith
  have hcos : Real.cos (Real.arccos c) = c := Real.cos_arccos (by linarith) hc1
  have hsn0 : 0 ≤ n1 / n2 * ρ := by positivity
  have hsn1 : n1 / n2 * ρ ≤ 1 := by rw [div_mul_eq_mul_div, div_le_one h2]; exact hcrit
  have habs : XF.abs (fin (-c)) = fin c := by rw [abs_fin, abs_neg, abs_of_pos hc0]
  have hth2 : refraction1 (fin (Real.arccos c)) (fin n1) (fin n2) = fin (Real.arcsin (n1 / n2 * ρ)) := by
    rw [refraction1_fin h2.ne', hsin, if_neg]
    rw [abs_of_nonneg hsn0]; exact not_lt.mpr hsn1
  set s2 := n1 / n2 * ρ with hs2
  have hsin2 : Real.sin (Real.arcsin s2) = s2 := Real.sin_arcsin (by linarith) hsn1
  have hcos2 : 0 ≤ Real.cos (Real.arcsin s2) := Real.cos_arcsin_nonneg s2
  have hcs2 := Real.sin_sq_add_cos_sq (Real.arcsin s2)
  rw [hsin2] at hcs2
  set c2 := Real.cos (Real.arcsin s2) with hc2def
  refine ⟨⟨k.x / ρ * s2, k.y / ρ * s2, -c2⟩, ⟨-p.z / k.z * k.x + p.x, -p.z / k.z * k.y + p.y, 0⟩, ?_, ⟨?_, ?_, ?_⟩, rfl,
    ⟨-p.z / k.z, ?_⟩⟩
  · unfold calcRefractedDirection
    simp only [ofV3, finV, fin_neg, fin_div _ hz, fin_mul, fin_add, hkz] at hu ⊢
    rw [hu, habs, arccos_of_mem (by linarith) hc1, hth2, fin_sub, fin_neg]
    congr 1
    have := rotateRefract_fin ⟨-p.z / k.z * k.x + p.x, -p.z / k.z * k.y + p.y, 0⟩ ⟨-k.y / ρ, k.x / ρ, 0⟩ ⟨k.x, k.y, -c⟩
      (-(Real.arcsin s2 - Real.arccos c))
    simp only [ofV3, finV] at this
    rw [this, Real.cos_neg, Real.sin_neg, Real.cos_sub, Real.sin_sub, hsin, hcos, hsin2, ← hc2def]
    have hunit : (⟨-k.y / ρ, k.x / ρ, 0⟩ : V3).normSq = 1 := by
      simp only [V3.normSq, V3.dot]; field_simp; nlinarith
    have hperp : V3.dot (⟨-k.y / ρ, k.x / ρ, 0⟩ : V3) ⟨k.x, k.y, -c⟩ = 0 := by
      simp only [V3.dot]; field_simp; ring
    rw [hunit, hperp]
    have hcc : c * c + ρ * ρ = 1 := by rw [hc2, hρ2]; nlinarith
    simp only [V3.add, V3.sub, V3.smul, V3.cross]
    congr 2
    · field_simp
      ring_nf
      ring_nf at hcc
      grind
    · field_simp
      ring_nf
      ring_nf at hcc
      grind
    · field_simp
      have e : k.y * k.y + k.x * k.x = ρ * ρ := by rw [hρ2]; ring
      ring_nf
      ring_nf at e hcc
      grind
  · simp only [V3.normSq, V3.dot]
    have : k.x / ρ * s2 * (k.x / ρ * s2) + k.y / ρ * s2 * (k.y / ρ * s2) = (k.x ^ 2 + k.y ^ 2) / (ρ * ρ) * s2 ^ 2 := by
      field_simp
    rw [this, hρ2, div_self hρpos.ne']
    nlinarith
  · simp only [V3.dot]; linarith
  · rw [hs2]
    ext <;> simp only [V3.cross, V3.smul] <;> field_simp <;> ring
  · ext
    · simp only [V3.add, V3.smul]; ring
    · simp only [V3.add, V3.smul]; ring
    · simp only [V3.add, V3.smul]; field_simp; ring

/-- Non-vacuity of C25. -/
example : (⟨3 / 5, 0, 4 / 5⟩ : V3).normSq = 1 ∧ (4 / 3 : ℝ) * Real.sqrt ((3 / 5) ^ 2 + 0 ^ 2) ≤ 1 := by
  constructor
  · norm_num [V3.normSq, V3.dot]
  · rw [show ((3 / 5 : ℝ) ^ 2 + 0 ^ 2) = (3 / 5) ^ 2 by norm_num, Real.sqrt_sq (by norm_num)]
    norm_num

/-- C25, total internal reflection and normal incidence.  The direction is NaN beyond the critical angle; it is also NaN
for a photon that leaves exactly along the normal (0/0 in the rotation axis), which is why C25 excludes it. -/
theorem C25_film_refraction_nan {k p : V3} {n1 n2 : ℝ} (h1 : 0 < n1) (h2 : 0 < n2) (hk : k.normSq = 1)
    (h : (k.x = 0 ∧ k.y = 0) ∨ n2 < n1 * Real.sqrt (k.x ^ 2 + k.y ^ 2)) :
    (calcRefractedDirection (ofV3 k) (ofV3 p) n1 n2).1 = ⟨nan, nan, nan⟩ := by
  have hk' : k.x * k.x + k.y * k.y + k.z * k.z = 1 := hk
  rcases h with ⟨hx, hy⟩ | h
  · have hu : normalizeCol ⟨fin (-0), fin 0, fin 0⟩ = ⟨nan, nan, nan⟩ := by
      rw [neg_zero]; exact normalizeCol_zero
    unfold calcRefractedDirection
    simp only [ofV3, finV, hx, hy, fin_neg] at hu ⊢
    rw [hu]
    simp [rotateRefract]
  · have hth : refraction1 (fin (Real.arccos |k.z|)) (fin n1) (fin n2) = nan := by
      have hz1 : |k.z| ≤ 1 := by
        rw [abs_le]; constructor <;> nlinarith [mul_self_nonneg k.x, mul_self_nonneg k.y]
      have hsin : Real.sin (Real.arccos |k.z|) = Real.sqrt (k.x ^ 2 + k.y ^ 2) := by
        rw [Real.sin_arccos, sq_abs]; congr 1; nlinarith
      rw [refraction1_fin h2.ne', hsin, if_pos]
      rw [abs_of_nonneg (by positivity), div_mul_eq_mul_div, lt_div_iff₀ h2, one_mul]
      exact h
    have habs : XF.arccos (XF.abs (negatePositive (fin k.z))) = fin (Real.arccos |k.z|) := by
      have hz1 : |k.z| ≤ 1 := by
        rw [abs_le]; constructor <;> nlinarith [mul_self_nonneg k.x, mul_self_nonneg k.y]
      have : XF.abs (negatePositive (fin k.z)) = fin |k.z| := by
        unfold negatePositive
        split <;> simp
      rw [this]
      exact arccos_of_mem (by linarith [abs_nonneg k.z]) hz1
    unfold calcRefractedDirection
    simp only [ofV3, finV]
    rw [habs, hth, nan_sub, neg_nan]
    simp [rotateRefract]

end Verif.Props
