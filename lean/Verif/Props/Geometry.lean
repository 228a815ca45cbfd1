import Verif.Lemmas.Geometry

/-!
# Properties of the geometrical helpers of /repo/structcol/detector.py: C21–C29, C68–C70
-/

namespace Verif.Props
open Classical Verif.Spec Verif.Root Verif.Geometry XF

/-! ## C21 -/

/-- C21.  For a start point inside (or on) the sphere and an end point outside it, the returned point is on the segment
between them and at distance `R` from the centre, and it is where the segment leaves the sphere (the motion is outwards
there), not where it may have entered it.  The only exception is a start point exactly on the sphere moving exactly
tangentially. -/
theorem C21_sphere_intersect {p0 p1 : V3} {R : ℝ} (h0 : p0.normSq ≤ R * R) (h1 : R * R < p1.normSq)
    (ht : ¬ (p0.normSq = R * R ∧ V3.dot (V3.sub p1 p0) p0 = 0)) :
    ∃ s : ℝ, 0 ≤ s ∧ s ≤ 1 ∧ (V3.add p0 (V3.smul s (V3.sub p1 p0))).normSq = R * R ∧
      0 < V3.dot (V3.sub p1 p0) (V3.add p0 (V3.smul s (V3.sub p1 p0))) ∧
      findVecSphereIntersect (ofV3 p0) (ofV3 p1) R = ofV3 (V3.add p0 (V3.smul s (V3.sub p1 p0))) := by
  set w := V3.sub p1 p0 with hw
  have hp1 : p1.normSq = p0.normSq + 2 * V3.dot w p0 + w.normSq := by
    simp only [hw, V3.normSq, V3.dot, V3.sub]; ring
  have hwne : w ≠ V3.zero := by
    intro h
    rw [h] at hp1
    simp [V3.normSq, V3.dot, V3.zero] at hp1
    simp only [V3.normSq, V3.dot] at h0 h1
    linarith
  have hd := norm_pos' hwne
  have hdd : w.normSq = w.norm * w.norm := (norm_sq' w).symm
  set d := w.norm with hdef
  set B := V3.dot w p0 / d with hB
  have hBd : V3.dot w p0 = B * d := by rw [hB]; field_simp
  set c := p0.normSq - R * R with hc
  have hc0 : c ≤ 0 := by linarith
  have hD : 0 ≤ (2 * B) ^ 2 - 4 * c := by nlinarith [sq_nonneg B]
  set s := Real.sqrt ((2 * B) ^ 2 - 4 * c) with hs
  have hs0 : 0 ≤ s := Real.sqrt_nonneg _
  have hss : s * s = (2 * B) ^ 2 - 4 * c := Real.mul_self_sqrt hD
  have hspos : 0 < s := by
    rcases hs0.lt_or_eq with h | h
    · exact h
    · exfalso
      rw [← h] at hss
      have hB2 : B ^ 2 ≤ 0 := by nlinarith
      have hB0 : B = 0 := by nlinarith [sq_nonneg B, pow_eq_zero_iff (two_ne_zero) |>.mp (le_antisymm hB2 (sq_nonneg B))]
      have : c = 0 := by nlinarith
      exact ht ⟨by linarith, by rw [hBd, hB0, zero_mul]⟩
  have hcond : 0 < d * d + 2 * B * d + c := by
    have : p1.normSq = p0.normSq + 2 * (B * d) + d * d := by rw [hp1, hBd, hdd]
    nlinarith
  have hprod : ((-(2 * B) + s) / 2) * ((-(2 * B) - s) / 2) = c := by nlinarith
  set tp := (-(2 * B) + s) / 2 with htp
  set tm := (-(2 * B) - s) / 2 with htm
  have hsum : tp + tm = -(2 * B) := by rw [htp, htm]; ring
  have hlt : tm < tp := by rw [htp, htm]; linarith
  have htm0 : tm ≤ 0 := by
    by_contra h
    push Not at h
    have : 0 < tp * tm := mul_pos (h.trans hlt) h
    linarith
  have htp0 : 0 ≤ tp := by
    by_contra h
    push Not at h
    have : 0 < tp * tm := mul_pos_of_neg_of_neg h (hlt.trans h)
    linarith
  have hpd : 0 < (tp - d) * (tm - d) := by
    have : (tp - d) * (tm - d) = tp * tm - (tp + tm) * d + d * d := by ring
    rw [this, hprod, hsum]; linarith
  have htpd : tp < d := by
    by_contra h
    push Not at h
    have : (tp - d) * (tm - d) ≤ 0 := mul_nonpos_of_nonneg_of_nonpos (by linarith) (by linarith)
    linarith
  have hcmp : (tp - d) ^ 2 < (tm - d) ^ 2 := by nlinarith
  refine ⟨tp / d, div_nonneg htp0 hd.le, (div_le_one hd).mpr htpd.le, ?_, ?_, ?_⟩
  · have : (V3.add p0 (V3.smul (tp / d) w)).normSq =
        p0.normSq + 2 * (tp / d) * V3.dot w p0 + (tp / d) ^ 2 * w.normSq := by
      simp only [V3.normSq, V3.dot, V3.add, V3.smul]; ring
    rw [this, hBd, hdd]
    have e : p0.normSq + 2 * (tp / d) * (B * d) + (tp / d) ^ 2 * (d * d) = p0.normSq + 2 * tp * B + tp * tp := by
      field_simp
    rw [e]
    have : tp * tp + 2 * B * tp + c = 0 := by
      have : tp * tm = tp * (-(2 * B) - tp) := by rw [← hsum]; ring
      nlinarith
    linarith
  · have e : V3.dot w (V3.add p0 (V3.smul (tp / d) w)) = V3.dot w p0 + tp / d * w.normSq := by
      simp only [V3.normSq, V3.dot, V3.add, V3.smul]; ring
    rw [e, hBd, hdd]
    have e2 : B * d + tp / d * (d * d) = (B + tp) * d := by field_simp
    rw [e2, show B + tp = s / 2 by rw [htp]; ring]
    positivity
  · rw [find_eq hd hdd hs0 hss]
    simp only
    rw [if_neg (not_lt.mpr hcmp.le), if_pos hcmp]

/-- Non-vacuity of C21: leaving the unit sphere from the centre. -/
example : (⟨0, 0, 0⟩ : V3).normSq ≤ 1 * 1 ∧ (1 * 1 : ℝ) < (⟨0, 0, 2⟩ : V3).normSq ∧
    ¬ ((⟨0, 0, 0⟩ : V3).normSq = 1 * 1 ∧ V3.dot (V3.sub ⟨0, 0, 2⟩ ⟨0, 0, 0⟩) ⟨0, 0, 0⟩ = 0) := by
  norm_num [V3.normSq, V3.dot]

/-- C21, no intersection.  When no point of the line through the two (different) points is on or inside the sphere, or when
the two points coincide, the zero vector is returned. -/
theorem C21_sphere_miss {p0 p1 : V3} {R : ℝ}
    (h : p0 = p1 ∨ ∀ t : ℝ, R * R < (V3.add p0 (V3.smul t (V3.sub p1 p0))).normSq) :
    findVecSphereIntersect (ofV3 p0) (ofV3 p1) R = ofV3 V3.zero := by
  by_cases hw0 : V3.sub p1 p0 = V3.zero
  · have hz : normalizeCol ⟨fin (p1.x - p0.x), fin (p1.y - p0.y), fin (p1.z - p0.z)⟩ = ⟨nan, nan, nan⟩ := by
      have h1 : p1.x - p0.x = 0 := congrArg V3.x hw0
      have h2 : p1.y - p0.y = 0 := congrArg V3.y hw0
      have h3 : p1.z - p0.z = 0 := congrArg V3.z hw0
      rw [h1, h2, h3]; exact normalizeCol_zero
    unfold findVecSphereIntersect
    simp only [ofV3, finV, fin_sub] at hz ⊢
    simp only [hz, nan_mul, nan_add, quadratic, mul_nan, neg_nan, div_nan, add_nan, distSq, nan_sub,
      nanToNum_nan, fin_lt, lt_irrefl, if_false, V3.zero]
  · rcases h with h | h
    · exact absurd (by subst h; simp [V3.sub, V3.zero]) hw0
    set w := V3.sub p1 p0 with hw
    have hd := norm_pos' hw0
    have hdd : w.norm * w.norm = w.normSq := norm_sq' w
    have hk : normalizeCol ⟨fin (p1.x - p0.x), fin (p1.y - p0.y), fin (p1.z - p0.z)⟩ =
        ofV3 (V3.smul (1 / w.norm) w) := by
      have := normalizeCol_fin hw0
      simpa [ofV3, finV, V3.sub, hw] using this
    have hlow := h (-(V3.dot w p0) / w.normSq)
    have hexp : ∀ t : ℝ, (V3.add p0 (V3.smul t w)).normSq = p0.normSq + 2 * t * V3.dot w p0 + t ^ 2 * w.normSq := by
      intro t; simp only [V3.normSq, V3.dot, V3.add, V3.smul]; ring
    rw [hexp] at hlow
    have hn := normSq_pos hw0
    have hlow' : R * R < p0.normSq - (V3.dot w p0) ^ 2 / w.normSq := by
      have : p0.normSq + 2 * (-(V3.dot w p0) / w.normSq) * V3.dot w p0 + (-(V3.dot w p0) / w.normSq) ^ 2 * w.normSq
        = p0.normSq - (V3.dot w p0) ^ 2 / w.normSq := by field_simp; ring
      rwa [this] at hlow
    have hdisc : (2 * (1 / w.norm * w.x * p0.x + 1 / w.norm * w.y * p0.y + 1 / w.norm * w.z * p0.z)) *
        (2 * (1 / w.norm * w.x * p0.x + 1 / w.norm * w.y * p0.y + 1 / w.norm * w.z * p0.z)) -
        4 * (1 / w.norm * w.x * (1 / w.norm * w.x) + 1 / w.norm * w.y * (1 / w.norm * w.y) + 1 / w.norm * w.z * (1 / w.norm * w.z)) *
        (p0.x * p0.x + p0.y * p0.y + p0.z * p0.z - R * R) < 0 := by
      have e1 : 1 / w.norm * w.x * (1 / w.norm * w.x) + 1 / w.norm * w.y * (1 / w.norm * w.y)
          + 1 / w.norm * w.z * (1 / w.norm * w.z) = 1 := by
        have : w.x * w.x + w.y * w.y + w.z * w.z = w.norm * w.norm := hdd.symm
        field_simp; linarith
      have e2 : (2 * (1 / w.norm * w.x * p0.x + 1 / w.norm * w.y * p0.y + 1 / w.norm * w.z * p0.z)) *
        (2 * (1 / w.norm * w.x * p0.x + 1 / w.norm * w.y * p0.y + 1 / w.norm * w.z * p0.z))
          = 4 * ((V3.dot w p0) ^ 2 / w.normSq) := by
        rw [← hdd]; unfold V3.dot; field_simp; ring
      have e3 : p0.x * p0.x + p0.y * p0.y + p0.z * p0.z = p0.normSq := rfl
      rw [e1, e2, e3]; linarith
    unfold findVecSphereIntersect
    simp only [ofV3, finV] at hk ⊢
    simp only [fin_sub, hk, V3.smul, fin_mul, fin_add, quadratic, sqrt_fin_neg hdisc]
    simp [distSq, V3.zero]

/-- Non-vacuity of C21_sphere_miss: a line at distance 2 from the centre of the unit sphere. -/
example : ∀ t : ℝ, (1 * 1 : ℝ) < (V3.add ⟨2, 0, 0⟩ (V3.smul t (V3.sub ⟨2, 0, 1⟩ ⟨2, 0, 0⟩))).normSq := by
  intro t
  simp only [V3.normSq, V3.dot, V3.add, V3.smul, V3.sub]
  nlinarith [sq_nonneg t]

/-! ## C22 -/

/-- `rotate_reflect` on specification vectors -/
def reflectV (k n : V3) : V3 :=
  let r := rotateReflect (k.x, k.y, k.z) (n.x, n.y, n.z)
  ⟨r.1, r.2.1, r.2.2⟩

/-- C22.  For a unit normal, `rotate_reflect` preserves lengths, reverses the component along the normal, keeps what is
tangential (the cross product with the normal), and is its own inverse. -/
theorem C22_mirror (k n : V3) (hn : n.normSq = 1) :
    (reflectV k n).normSq = k.normSq ∧ V3.dot (reflectV k n) n = -V3.dot k n ∧
    V3.cross n (reflectV k n) = V3.cross n k ∧ reflectV (reflectV k n) n = k := by
  have hn' : n.x * n.x + n.y * n.y + n.z * n.z = 1 := hn
  refine ⟨?_, ?_, ?_, ?_⟩
  · simp only [reflectV, rotateReflect, V3.normSq, V3.dot]
    linear_combination (4 * (k.x * n.x + k.y * n.y + k.z * n.z) ^ 2) * hn'
  · simp only [reflectV, rotateReflect, V3.dot]
    linear_combination (-2 * (k.x * n.x + k.y * n.y + k.z * n.z)) * hn'
  · simp only [reflectV, rotateReflect, V3.cross]
    ext <;> simp only <;> ring
  · ext
    · simp only [reflectV, rotateReflect]
      linear_combination (4 * (k.x * n.x + k.y * n.y + k.z * n.z) * n.x) * hn'
    · simp only [reflectV, rotateReflect]
      linear_combination (4 * (k.x * n.x + k.y * n.y + k.z * n.z) * n.y) * hn'
    · simp only [reflectV, rotateReflect]
      linear_combination (4 * (k.x * n.x + k.y * n.y + k.z * n.z) * n.z) * hn'

/-- Non-vacuity of C22. -/
example : (⟨0, 3 / 5, 4 / 5⟩ : V3).normSq = 1 ∧ reflectV ⟨0, 0, 1⟩ ⟨0, 0, 1⟩ = ⟨0, 0, -1⟩ := by
  constructor
  · norm_num [V3.normSq, V3.dot]
  · ext <;> norm_num [reflectV, rotateReflect]

/-! ## C23 -/

/-- C23.  For a unit axis `u`, any anchor `p`, any vector `k` and any angle, `rotate_refract` returns a finite vector `r`
with the same length and the same component along the axis as `k`; the part of `k` perpendicular to the axis is turned
right-handedly by exactly `α` (cosine and sine of the turning angle); any other anchor gives the same `r`. -/
theorem C23_rotation (p u k : V3) (α : ℝ) (hu : u.normSq = 1) :
    ∃ r : V3, rotateRefract (ofV3 p) (ofV3 u) (ofV3 k) (fin α) = ofV3 r ∧
      r.normSq = k.normSq ∧ V3.dot r u = V3.dot k u ∧
      (let kp := V3.sub k (V3.smul (V3.dot k u) u)
       let rp := V3.sub r (V3.smul (V3.dot r u) u)
       V3.dot kp rp = Real.cos α * kp.normSq ∧ V3.dot u (V3.cross kp rp) = Real.sin α * kp.normSq) ∧
      ∀ p' : V3, rotateRefract (ofV3 p') (ofV3 u) (ofV3 k) (fin α) = ofV3 r := by
  have hu' : u.x * u.x + u.y * u.y + u.z * u.z = 1 := hu
  have hp : ∀ p', rotateRefract (ofV3 p') (ofV3 u) (ofV3 k) (fin α) =
      ofV3 (V3.add (V3.smul (Real.cos α) k) (V3.add (V3.smul (Real.sin α) (V3.cross u k))
          (V3.smul (V3.dot u k * (1 - Real.cos α)) u))) := by
    intro p'
    rw [rotateRefract_fin, hu]
    congr 1
    ext <;> simp [V3.add, V3.sub, V3.smul]
  refine ⟨_, hp p, ?_, ?_, ⟨?_, ?_⟩, hp⟩
  all_goals
    have hcs := Real.sin_sq_add_cos_sq α
    set c := Real.cos α
    set s := Real.sin α
    obtain ⟨a, b, g⟩ := u
    obtain ⟨x, y, z⟩ := k
    simp only [V3.normSq, V3.dot, V3.add, V3.smul, V3.sub, V3.cross] at hu' ⊢
  · have hs : s ^ 2 = 1 - c ^ 2 := by linarith
    have hg : g ^ 2 = 1 - a ^ 2 - b ^ 2 := by nlinarith
    ring_nf
    grind
  · grind
  · grind
  · grind

/-- C23, composition.  Turning by `α` and then by `β` about the same unit axis (with any anchors) is turning by `α + β`. -/
theorem C23_rotation_add (p p' p'' u k : V3) (α β : ℝ) (hu : u.normSq = 1) :
    rotateRefract (ofV3 p) (ofV3 u) (rotateRefract (ofV3 p') (ofV3 u) (ofV3 k) (fin α)) (fin β) =
      rotateRefract (ofV3 p'') (ofV3 u) (ofV3 k) (fin (α + β)) := by
  have hu' : u.x * u.x + u.y * u.y + u.z * u.z = 1 := hu
  rw [rotateRefract_fin, rotateRefract_fin, rotateRefract_fin, hu, Real.cos_add, Real.sin_add]
  congr 1
  have h1 := Real.sin_sq_add_cos_sq α
  have h2 := Real.sin_sq_add_cos_sq β
  set c := Real.cos α
  set s := Real.sin α
  set c' := Real.cos β
  set s' := Real.sin β
  obtain ⟨a, b, g⟩ := u
  obtain ⟨x, y, z⟩ := k
  simp only [V3.dot, V3.add, V3.smul, V3.sub, V3.cross] at hu' ⊢
  ext <;> simp only <;> grind

/-- Non-vacuity of C23: a quarter turn of x about z gives y. -/
example : (⟨0, 0, 1⟩ : V3).normSq = 1 ∧
    rotateRefract (ofV3 ⟨7, 8, 9⟩) (ofV3 ⟨0, 0, 1⟩) (ofV3 ⟨1, 0, 0⟩) (fin (Real.pi / 2)) = ofV3 ⟨0, 1, 0⟩ := by
  constructor
  · norm_num [V3.normSq, V3.dot]
  · rw [rotateRefract_fin]
    congr 1
    ext <;> norm_num [V3.normSq, V3.dot, V3.add, V3.smul, V3.sub, V3.cross]

/-! ## C24 -/

/-- The setting of C24: a photon inside (or on) the sphere of radius `R` takes a step that ends outside; it crosses the
surface at the point `q`; `k` is the unit direction of the step; coordinates are below the 1e20·R replacement level. -/
structure SphereExit (R : ℝ) (p0 p1 k q : V3) : Prop where
  radius : 0 < R
  inside : p0.normSq ≤ R * R
  outside : R * R < p1.normSq
  bounded : Bounded p1 (10 ^ 20 * R)
  unit : k.normSq = 1
  step : ∃ d : ℝ, 0 < d ∧ V3.sub p1 p0 = V3.smul d k
  crossing : ∃ t : ℝ, 0 < t ∧ q = V3.add p0 (V3.smul t k)
  surface : q.normSq = R * R

/-- the intersection that the code finds is the crossing point -/
theorem SphereExit.intersect_angles {R : ℝ} {p0 p1 k q : V3} (h : SphereExit R p0 p1 k q) :
    findVecSphereIntersect (ofV3 p0) (ofV3 p1) R = ofV3 q ∧
    (∃ s : ℝ, 0 ≤ s ∧ s ≤ 1 ∧ q = V3.add p0 (V3.smul s (V3.sub p1 p0))) ∧
    getAnglesSphere (ofV3 p0) (ofV3 p1) R =
      (fin (Real.arccos (V3.dot (V3.smul (1 / R) q) k)), ofV3 (V3.smul (1 / R) q)) := by
  obtain ⟨d, hd, hw⟩ := h.step
  obtain ⟨t, ht, hq⟩ := h.crossing
  have hdd : (V3.sub p1 p0).normSq = d * d := by rw [hw, smul_normSq, h.unit, mul_one]
  have hnorm : (V3.sub p1 p0).norm = d := norm_eq_of_normSq hd.le hdd
  have hne : V3.sub p1 p0 ≠ V3.zero := by
    intro hz
    rw [hz] at hdd
    simp [V3.normSq, V3.dot, V3.zero] at hdd
    exact hd.ne' hdd
  have hkk : V3.smul (1 / (V3.sub p1 p0).norm) (V3.sub p1 p0) = k := by
    rw [hnorm, hw]
    ext <;> simp only [V3.smul] <;> field_simp
  -- the crossing point is the one that the code finds
  have hin := h.inside
  have hsurf := h.surface
  have hexp : ∀ r : ℝ, (V3.add p0 (V3.smul r k)).normSq = p0.normSq + 2 * r * V3.dot p0 k + r * r := by
    intro r
    have : (V3.add p0 (V3.smul r k)).normSq = p0.normSq + 2 * r * V3.dot p0 k + r * r * k.normSq := by
      simp only [V3.normSq, V3.dot, V3.add, V3.smul]; ring
    rw [this, h.unit, mul_one]
  have htq : p0.normSq + 2 * t * V3.dot p0 k + t * t = R * R := by rw [← hexp, ← hq, hsurf]
  have htan : ¬ (p0.normSq = R * R ∧ V3.dot (V3.sub p1 p0) p0 = 0) := by
    rintro ⟨h1, h2⟩
    have h3 : V3.dot p0 k = 0 := by
      rw [hw] at h2
      have : V3.dot (V3.smul d k) p0 = d * V3.dot p0 k := by simp only [V3.dot, V3.smul]; ring
      rw [this] at h2
      exact (mul_eq_zero.mp h2).resolve_left hd.ne'
    rw [h3, h1] at htq
    nlinarith
  obtain ⟨s, hs0, hs1, hsq, -, hf⟩ := C21_sphere_intersect h.inside h.outside htan
  have hsd : V3.add p0 (V3.smul s (V3.sub p1 p0)) = V3.add p0 (V3.smul (s * d) k) := by
    rw [hw]; ext <;> simp only [V3.add, V3.smul] <;> ring
  rw [hsd] at hsq hf
  have hsq' : p0.normSq + 2 * (s * d) * V3.dot p0 k + (s * d) * (s * d) = R * R := by rw [← hexp, hsq]
  have hr0 : 0 ≤ s * d := by positivity
  have hfin : V3.add p0 (V3.smul (s * d) k) = q := by
    have hfac : (t - s * d) * (t + s * d + 2 * V3.dot p0 k) = 0 := by nlinarith
    rcases mul_eq_zero.mp hfac with h4 | h4
    · have : t = s * d := by linarith
      rw [hq, this]
    · -- the product of the two roots is non-positive
      have h5 : t * (s * d) = p0.normSq - R * R := by
        have : V3.dot p0 k = -(t + s * d) / 2 := by linarith
        rw [this] at htq
        nlinarith
      have h6 : s * d = 0 := by
        rcases hr0.lt_or_eq with h7 | h7
        · have : 0 < t * (s * d) := mul_pos ht h7
          linarith
        · exact h7.symm
      -- then the start is on the surface and moves inwards; the end point would be reached at the other root
      exfalso
      rw [h6] at h4 h5
      have hp1 : p1 = V3.add p0 (V3.smul d k) := by
        have hx := congrArg V3.x hw
        have hy := congrArg V3.y hw
        have hz := congrArg V3.z hw
        simp only [V3.sub, V3.smul] at hx hy hz
        ext <;> simp only [V3.add, V3.smul] <;> linarith
      have hout := h.outside
      rw [hp1, hexp] at hout
      have hdt : t < d := by
        have : V3.dot p0 k = -t / 2 := by linarith
        rw [this] at hout
        nlinarith
      -- the code picks the root closer to the end point, which is `t`
      have hff := find_eq (p0 := p0) (p1 := p1) (R := R) (d := d) (s := t) hd hdd ht.le (by
        rw [hw]
        have : V3.dot (V3.smul d k) p0 = d * V3.dot p0 k := by simp only [V3.dot, V3.smul]; ring
        rw [this, mul_div_assoc]
        have e : V3.dot p0 k = -t / 2 := by linarith
        rw [e]; field_simp; nlinarith)
      have hB : 2 * (V3.dot (V3.sub p1 p0) p0 / d) = -t := by
        rw [hw]
        have : V3.dot (V3.smul d k) p0 = d * V3.dot p0 k := by simp only [V3.dot, V3.smul]; ring
        rw [this]
        have e : V3.dot p0 k = -t / 2 := by linarith
        rw [e]; field_simp
      simp only [hB] at hff
      have e1 : (-(-t) + t) / 2 = t := by ring
      have e2 : (-(-t) - t) / 2 = 0 := by ring
      rw [e1, e2, if_neg (by nlinarith), if_pos (by nlinarith), hf, ofV3_inj, h6] at hff
      have hx := congrArg V3.x hff
      have hy := congrArg V3.y hff
      have hz := congrArg V3.z hff
      rw [hw] at hx hy hz
      simp only [V3.add, V3.smul] at hx hy hz
      have hk := h.unit
      simp only [V3.normSq, V3.dot] at hk
      have hx' : k.x = 0 := by
        have : t / d * (d * k.x) = t * k.x := by field_simp
        rw [this] at hx
        have : t * k.x = 0 := by linarith
        exact (mul_eq_zero.mp this).resolve_left ht.ne'
      have hy' : k.y = 0 := by
        have : t / d * (d * k.y) = t * k.y := by field_simp
        rw [this] at hy
        have : t * k.y = 0 := by linarith
        exact (mul_eq_zero.mp this).resolve_left ht.ne'
      have hz' : k.z = 0 := by
        have : t / d * (d * k.z) = t * k.z := by field_simp
        rw [this] at hz
        have : t * k.z = 0 := by linarith
        exact (mul_eq_zero.mp this).resolve_left ht.ne'
      rw [hx', hy', hz'] at hk
      norm_num at hk
  rw [hfin] at hf
  refine ⟨hf, ⟨s, hs0, hs1, by rw [hsd, hfin]⟩, ?_⟩
  rw [getAnglesSphere_eq h.radius (bounded_of_normSq h.radius h.inside) h.bounded hne hsurf hf, hkk]

theorem SphereExit.angles {R : ℝ} {p0 p1 k q : V3} (h : SphereExit R p0 p1 k q) :
    getAnglesSphere (ofV3 p0) (ofV3 p1) R =
      (fin (Real.arccos (V3.dot (V3.smul (1 / R) q) k)), ofV3 (V3.smul (1 / R) q)) := h.intersect_angles.2.2

theorem SphereExit.normal_unit {R : ℝ} {p0 p1 k q : V3} (h : SphereExit R p0 p1 k q) :
    (V3.smul (1 / R) q).normSq = 1 := by
  have := h.radius
  rw [smul_normSq, h.surface]; field_simp

/-- what `exit_kz` computes, in terms of the angle of incidence -/
theorem SphereExit.exitKz_eq {R : ℝ} {p0 p1 k q : V3} (h : SphereExit R p0 p1 k q) (n1 n2 : ℝ) :
    exitKz (ofV3 p0) (ofV3 p1) (ofV3 k) (2 * R) n1 n2 =
      (let n := V3.smul (1 / R) q
       let θ := Real.arccos (V3.dot n k)
       (rotateRefract (ofV3 (V3.smul R n)) (ofV3 (V3.cross k n)) (ofV3 k)
        (refraction1 (fin θ) (fin n1) (fin n2) - fin θ)).z) := by
  unfold exitKz
  have e : (2 * R / 2 : ℝ) = R := by ring
  rw [e, h.angles]
  simp only
  have e1 : crossX (ofV3 k) (ofV3 (V3.smul (1 / R) q)) = ofV3 (V3.cross k (V3.smul (1 / R) q)) := by
    simp [crossX, ofV3, finV, V3.cross]
  have e2 : (⟨(ofV3 (V3.smul (1 / R) q)).x * fin (2 * R) / fin 2, (ofV3 (V3.smul (1 / R) q)).y * fin (2 * R) / fin 2,
      (ofV3 (V3.smul (1 / R) q)).z * fin (2 * R) / fin 2⟩ : XV) = ofV3 (V3.smul R (V3.smul (1 / R) q)) := by
    simp only [ofV3, finV, fin_mul, V3.smul]
    rw [fin_div _ (by norm_num : (2 : ℝ) ≠ 0), fin_div _ (by norm_num : (2 : ℝ) ≠ 0),
      fin_div _ (by norm_num : (2 : ℝ) ≠ 0)]
    congr 2 <;> ring
  rw [e1, e2]

end Verif.Props
