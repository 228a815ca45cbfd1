import Verif.Props.Geometry3
import Verif.SpecDetector

/-!
# C139: which rays the goniometer counts

`calc_indices_detected` for photons leaving the sample at the centre of the detection hemisphere, against the square detector
of Verif/SpecDetector.lean.
-/

namespace Verif.Props
noncomputable section
open Classical XF Root Verif.Spec Verif.Geometry
open Verif.Geometry (XV)

/-- Photon `j` leaves the sample at the origin: the line along which it leaves contains it.  It was counted as reflected at
event `indices j`, its direction in the sample is a unit vector not parallel to the surface, and outside the sample it
continues along `k2`. -/
structure LeavesAtCentre {nev nt : ℕ} (indices : Fin nt → ℕ) (px py pz : Fin (nev + 1) → Fin nt → ℝ)
    (kx ky kz : Fin nev → Fin nt → ℝ) (ns nm : ℝ) (j : Fin nt) (k2 : V3) : Prop where
  sample : 0 < ns
  medium : 0 < nm
  exits : 0 < indices j
  unit : (evRow kx ky kz indices j).normSq = 1
  slanted : (evRow kx ky kz indices j).z ≠ 0
  centre : ∃ t, V3.zero = V3.add (evRow (fun e => px e.succ) (fun e => py e.succ) (fun e => pz e.succ) indices j)
    (V3.smul t (evRow kx ky kz indices j))
  refracted : RefractedAt ns nm ⟨0, 0, -1⟩ ⟨(evRow kx ky kz indices j).x, (evRow kx ky kz indices j).y,
    -|(evRow kx ky kz indices j).z|⟩ k2

private theorem zero_normSq : (V3.zero).normSq = 0 := by simp [V3.normSq, V3.dot, V3.zero]

/-- refraction at the surface determines the direction outside -/
private theorem centre_refr_unique {ns nm : ℝ} (hm : 0 < nm) {k k2 k2' : V3} (h : RefractedAt ns nm ⟨0, 0, -1⟩ k k2)
    (h' : RefractedAt ns nm ⟨0, 0, -1⟩ k k2') : k2 = k2' := by
  obtain ⟨h1, h2, h3⟩ := h
  obtain ⟨h1', h2', h3'⟩ := h'
  rw [← h3'] at h3
  simp only [V3.smul, V3.cross, V3.mk.injEq] at h3
  have ex : k2.x = k2'.x := by
    have := h3.2.1; simp at this; rcases this with h | h
    · exact h
    · exact absurd h hm.ne'
  have ey : k2.y = k2'.y := by
    have := h3.1; simp at this; rcases this with h | h
    · exact h
    · exact absurd h hm.ne'
  simp only [V3.normSq, V3.dot] at h1 h1' h2 h2'
  rw [ex, ey] at h1
  have : k2.z * k2.z = k2'.z * k2'.z := by linarith
  refine V3.ext ex ey ?_
  rcases mul_self_eq_mul_self_iff.mp this with h | h
  · exact h
  · have h0 : k2.z ≤ 0 := by linarith
    have h0' : k2'.z ≤ 0 := by linarith
    linarith

theorem LeavesAtCentre.detected_iff {nev nt : ℕ} {indices : Fin nt → ℕ} {px py pz : Fin (nev + 1) → Fin nt → ℝ}
    {kx ky kz : Fin nev → Fin nt → ℝ} {ns nm : ℝ} {j : Fin nt} {k2 : V3}
    (H : LeavesAtCentre indices px py pz kx ky kz ns nm j k2) {θ L D : ℝ} (hθ : θ < Real.pi / 2) (hD : 0 < D) :
    calcIndicesDetected indices px py pz kx ky kz θ L D ns nm j = indices j ↔
      (k2.x ≠ 0 ∨ k2.y ≠ 0) ∧ |Real.sqrt (D ^ 2 + (L / 2) ^ 2) * k2.x - D * Real.sin θ| < L * Real.cos θ / 2 ∧
        |Real.sqrt (D ^ 2 + (L / 2) ^ 2) * k2.y| < L / 2 ∧ k2.z < 0 := by
  have hr0 : 0 < Real.sqrt (D ^ 2 + (L / 2) ^ 2) := Real.sqrt_pos.mpr (by positivity)
  have hrr : Real.sqrt (D ^ 2 + (L / 2) ^ 2) * Real.sqrt (D ^ 2 + (L / 2) ^ 2) = D ^ 2 + (L / 2) ^ 2 :=
    Real.mul_self_sqrt (by positivity)
  set r := Real.sqrt (D ^ 2 + (L / 2) ^ 2) with hr
  rw [(C26_detected_iff indices px py pz kx ky kz (L := L) (D := D) H.sample H.medium hθ j H.exits H.unit H.slanted).2 _ _
    rfl rfl V3.zero rfl H.centre (by rw [zero_normSq]; positivity)]
  have hxy : ((evRow kx ky kz indices j).x ≠ 0 ∨ (evRow kx ky kz indices j).y ≠ 0) ↔ (k2.x ≠ 0 ∨ k2.y ≠ 0) := by
    obtain ⟨-, -, h3⟩ := H.refracted
    simp only [V3.smul, V3.cross, V3.mk.injEq] at h3
    have e1 : nm * k2.x = ns * (evRow kx ky kz indices j).x := by have := h3.2.1; linarith
    have e2 : nm * k2.y = ns * (evRow kx ky kz indices j).y := by have := h3.1; linarith
    have f1 : k2.x = 0 ↔ (evRow kx ky kz indices j).x = 0 := by
      constructor
      · intro h; rw [h, mul_zero] at e1; exact (mul_eq_zero.mp e1.symm).resolve_left H.sample.ne'
      · intro h; rw [h, mul_zero] at e1; exact (mul_eq_zero.mp e1).resolve_left H.medium.ne'
    have f2 : k2.y = 0 ↔ (evRow kx ky kz indices j).y = 0 := by
      constructor
      · intro h; rw [h, mul_zero] at e2; exact (mul_eq_zero.mp e2.symm).resolve_left H.sample.ne'
      · intro h; rw [h, mul_zero] at e2; exact (mul_eq_zero.mp e2).resolve_left H.medium.ne'
    simp only [ne_eq, f1, f2]
  rw [hxy]
  refine and_congr_right fun _ => ?_
  constructor
  · rintro ⟨k2', href, t, q, ht, hq, hqn, hx, hy, hz⟩
    obtain rfl := centre_refr_unique H.medium H.refracted href
    have hqt : q = V3.smul t k2 := by rw [hq]; ext <;> simp [V3.add, V3.smul, V3.zero]
    have htt : t * t = r * r := by rw [hrr, ← hqn, hqt, smul_normSq, href.1, mul_one]
    have htr : t = r := by
      rcases mul_self_eq_mul_self_iff.mp htt with h | h
      · exact h
      · linarith
    rw [hqt, htr] at hx hy hz
    refine ⟨hx, hy, ?_⟩
    simp only [V3.smul] at hz
    by_contra h
    push Not at h
    have := mul_nonneg hr0.le h
    linarith
  · rintro ⟨hx, hy, hz⟩
    refine ⟨k2, H.refracted, r, V3.smul r k2, hr0.le, ?_, ?_, hx, hy, ?_⟩
    · ext <;> simp [V3.add, V3.smul, V3.zero]
    · rw [smul_normSq, H.refracted.1, mul_one, hrr]
    · simp only [V3.smul]; exact mul_neg_of_pos_of_neg hr0 hz

/-- distance and half side in terms of the half angle of view -/
private theorem halfWidth_facts {L D : ℝ} (hL : 0 < L) (hD : 0 < D) :
    0 < halfWidth L D ∧ halfWidth L D < Real.pi / 2 ∧
      D = Real.sqrt (D ^ 2 + (L / 2) ^ 2) * Real.cos (halfWidth L D) ∧
      L / 2 = Real.sqrt (D ^ 2 + (L / 2) ^ 2) * Real.sin (halfWidth L D) := by
  have hx : 0 < L / 2 / D := by positivity
  have hcos : 0 < Real.cos (halfWidth L D) := Real.cos_arctan_pos _
  have htan : Real.tan (halfWidth L D) = L / 2 / D := Real.tan_arctan _
  rw [Real.tan_eq_sin_div_cos, div_eq_div_iff hcos.ne' hD.ne'] at htan
  have hr0 : 0 < Real.sqrt (D ^ 2 + (L / 2) ^ 2) := Real.sqrt_pos.mpr (by positivity)
  have hrr : Real.sqrt (D ^ 2 + (L / 2) ^ 2) ^ 2 = D ^ 2 + (L / 2) ^ 2 := Real.sq_sqrt (by positivity)
  have hsc := Real.sin_sq_add_cos_sq (halfWidth L D)
  set r := Real.sqrt (D ^ 2 + (L / 2) ^ 2)
  have h1 : D ^ 2 = (r * Real.cos (halfWidth L D)) ^ 2 := by
    have : (L / 2) ^ 2 * Real.cos (halfWidth L D) ^ 2 = D ^ 2 * Real.sin (halfWidth L D) ^ 2 := by
      have : (Real.sin (halfWidth L D) * D) ^ 2 = (L / 2 * Real.cos (halfWidth L D)) ^ 2 := by rw [htan]
      nlinarith
    rw [mul_pow, hrr]
    nlinarith
  have h2 : D = r * Real.cos (halfWidth L D) := by
    have := abs_eq_abs.mpr (sq_eq_sq_iff_eq_or_eq_neg.mp h1)
    rwa [abs_of_pos hD, abs_of_pos (by positivity)] at this
  refine ⟨Real.arctan_pos.mpr hx, Real.arctan_lt_pi_div_two _, h2, ?_⟩
  have h3 : Real.sin (halfWidth L D) * D = L / 2 * Real.cos (halfWidth L D) := htan
  have : (L / 2) * Real.cos (halfWidth L D) = r * Real.sin (halfWidth L D) * Real.cos (halfWidth L D) := by
    rw [← h3]
    calc Real.sin (halfWidth L D) * D = D * Real.sin (halfWidth L D) := mul_comm _ _
      _ = r * Real.cos (halfWidth L D) * Real.sin (halfWidth L D) := congrArg (· * Real.sin (halfWidth L D)) h2
      _ = _ := by ring
  exact mul_right_cancel₀ hcos.ne' this

/-- A ray in the x-z plane at angle `φ` from the normal meets the square exactly if `φ` differs from the detector's angle by
less than the half angle of view. -/
theorem meetsSquare_plane {θ φ L D : ℝ} (hL : 0 < L) (hD : 0 < D) (hθ : |θ| < Real.pi / 2) (hφ : |φ| < Real.pi / 2) :
    MeetsSquare θ L D (towards φ) ↔ |φ - θ| < halfWidth L D := by
  have hsc := Real.sin_sq_add_cos_sq θ
  obtain ⟨h1, h2⟩ := abs_lt.mp hθ
  obtain ⟨h3, h4⟩ := abs_lt.mp hφ
  have ex : ∀ t u : ℝ, (t * Real.sin φ = D * Real.sin θ + u * Real.cos θ ∧ t * Real.cos φ = D * Real.cos θ - u * Real.sin θ) ↔
      (t * Real.cos (φ - θ) = D ∧ t * Real.sin (φ - θ) = u) := by
    intro t u
    rw [Real.cos_sub, Real.sin_sub]
    constructor
    · rintro ⟨a, b⟩
      constructor
      · have : t * (Real.cos φ * Real.cos θ + Real.sin φ * Real.sin θ) =
          (t * Real.cos φ) * Real.cos θ + (t * Real.sin φ) * Real.sin θ := by ring
        rw [this, a, b]; linear_combination D * hsc
      · have : t * (Real.sin φ * Real.cos θ - Real.cos φ * Real.sin θ) =
          (t * Real.sin φ) * Real.cos θ - (t * Real.cos φ) * Real.sin θ := by ring
        rw [this, a, b]; linear_combination u * hsc
    · rintro ⟨a, b⟩
      rw [← a, ← b]
      constructor
      · linear_combination (-(t * Real.sin φ)) * hsc
      · linear_combination (-(t * Real.cos φ)) * hsc
  constructor
  · rintro ⟨t, u, v, ht, hu, -, he⟩
    simp only [V3.smul, V3.add, towards, V3.mk.injEq] at he
    obtain ⟨hc, hs⟩ := (ex t u).mp ⟨by linarith [he.1], by linarith [he.2.2]⟩
    have hcpos : 0 < Real.cos (φ - θ) := by
      by_contra h
      push Not at h
      have := mul_nonpos_of_nonneg_of_nonpos ht.le h
      linarith
    have hlt : |φ - θ| < Real.pi / 2 := by
      rw [abs_lt]
      constructor
      · by_contra h
        push Not at h
        have : Real.cos (φ - θ) ≤ 0 := by
          rw [← Real.cos_neg]
          exact Real.cos_nonpos_of_pi_div_two_le_of_le (by linarith) (by linarith)
        linarith
      · by_contra h
        push Not at h
        have : Real.cos (φ - θ) ≤ 0 := Real.cos_nonpos_of_pi_div_two_le_of_le (by linarith) (by linarith)
        linarith
    have htan : Real.tan (φ - θ) = u / D := by
      rw [Real.tan_eq_sin_div_cos, div_eq_div_iff hcpos.ne' hD.ne', ← hs, ← hc]; ring
    have harc : φ - θ = Real.arctan (u / D) := by
      rw [← htan, Real.arctan_tan (abs_lt.mp hlt).1 (abs_lt.mp hlt).2]
    rw [harc, abs_lt, halfWidth, ← Real.arctan_neg]
    obtain ⟨hu1, hu2⟩ := abs_lt.mp hu
    constructor
    · exact Real.arctan_strictMono (by rw [neg_lt, ← neg_div]; exact (div_lt_div_iff_of_pos_right hD).mpr (by linarith))
    · exact Real.arctan_strictMono ((div_lt_div_iff_of_pos_right hD).mpr hu2)
  · intro h
    have hw : halfWidth L D < Real.pi / 2 := Real.arctan_lt_pi_div_two _
    obtain ⟨a, b⟩ := abs_lt.mp h
    have hcpos : 0 < Real.cos (φ - θ) := Real.cos_pos_of_mem_Ioo ⟨by linarith, by linarith⟩
    obtain ⟨e1, e2⟩ := (ex (D / Real.cos (φ - θ)) (D * Real.tan (φ - θ))).mpr
      ⟨by field_simp, by rw [Real.tan_eq_sin_div_cos]; field_simp⟩
    refine ⟨D / Real.cos (φ - θ), D * Real.tan (φ - θ), 0, by positivity, ?_, by simp; exact hL, ?_⟩
    · have hb : |Real.tan (φ - θ)| < L / 2 / D := by
        have hpi : L / 2 / D = Real.tan (halfWidth L D) := (Real.tan_arctan _).symm
        rw [hpi, abs_lt, ← Real.tan_neg]
        have hmem : ∀ x, |x| ≤ halfWidth L D → x ∈ Set.Ioo (-(Real.pi / 2)) (Real.pi / 2) := fun x hx => by
          obtain ⟨c, d⟩ := abs_le.mp hx
          exact ⟨by linarith, by linarith⟩
        have hw0 : 0 < halfWidth L D := (halfWidth_facts hL hD).1
        constructor
        · exact Real.strictMonoOn_tan (hmem _ (by rw [abs_neg, abs_of_pos hw0])) (hmem _ h.le) a
        · exact Real.strictMonoOn_tan (hmem _ h.le) (hmem _ (by rw [abs_of_pos hw0])) b
      rw [abs_mul, abs_of_pos hD]
      calc D * |Real.tan (φ - θ)| < D * (L / 2 / D) := mul_lt_mul_of_pos_left hb hD
        _ = L / 2 := by field_simp
    · simp only [V3.smul, V3.add, towards, V3.mk.injEq]
      refine ⟨by linarith, by simp, by linarith⟩

/-- C139, the part that holds.  A photon leaving at the centre, in the plane of the detector and not exactly along the normal,
is counted exactly if it meets the square, provided the whole detector is on the reflection side of the sample
(`|θ| + half angle of view ≤ 90°`). -/
theorem C139_square_detector_partial {nev nt : ℕ} {indices : Fin nt → ℕ} {px py pz : Fin (nev + 1) → Fin nt → ℝ}
    {kx ky kz : Fin nev → Fin nt → ℝ} {ns nm : ℝ} {j : Fin nt} {φ : ℝ}
    (H : LeavesAtCentre indices px py pz kx ky kz ns nm j (towards φ)) (hφ : |φ| < Real.pi / 2) (hφ0 : φ ≠ 0) {θ L D : ℝ}
    (hL : 0 < L) (hD : 0 < D) (hθ : |θ| + halfWidth L D ≤ Real.pi / 2) :
    (calcIndicesDetected indices px py pz kx ky kz θ L D ns nm j = indices j ↔ MeetsSquare θ L D (towards φ)) ∧
      (MeetsSquare θ L D (towards φ) ↔ |φ - θ| < halfWidth L D) := by
  obtain ⟨hw0, hw1, hDr, hLr⟩ := halfWidth_facts hL hD
  have hθ' : |θ| < Real.pi / 2 := by linarith
  refine ⟨?_, meetsSquare_plane hL hD hθ' hφ⟩
  rw [meetsSquare_plane hL hD hθ' hφ, H.detected_iff (abs_lt.mp hθ').2 hD]
  have hr0 : 0 < Real.sqrt (D ^ 2 + (L / 2) ^ 2) := Real.sqrt_pos.mpr (by positivity)
  set r := Real.sqrt (D ^ 2 + (L / 2) ^ 2)
  set α := halfWidth L D
  have hz : -Real.cos φ < 0 := by
    have := Real.cos_pos_of_mem_Ioo (abs_lt.mp hφ); linarith
  have hx0 : Real.sin φ ≠ 0 := fun h => by
    obtain ⟨a, b⟩ := abs_lt.mp hφ
    have := (Real.sin_eq_zero_iff_of_lt_of_lt (by linarith) (by linarith)).mp h
    exact hφ0 this
  obtain ⟨t1, t2⟩ := abs_le.mp (le_refl |θ|)
  obtain ⟨p1, p2⟩ := abs_lt.mp hφ
  have key : |r * Real.sin φ - D * Real.sin θ| < L * Real.cos θ / 2 ↔ |φ - θ| < α := by
    have e1 : D * Real.sin θ = r * (Real.cos α * Real.sin θ) := by rw [← mul_assoc, ← hDr]
    have e2 : L * Real.cos θ / 2 = r * (Real.sin α * Real.cos θ) := by rw [← mul_assoc, ← hLr]; ring
    rw [e1, e2, ← mul_sub, abs_mul, abs_of_pos hr0, mul_lt_mul_iff_right₀ hr0, abs_lt, abs_lt]
    have m1 : θ - α ∈ Set.Icc (-(Real.pi / 2)) (Real.pi / 2) := ⟨by linarith, by linarith⟩
    have m2 : θ + α ∈ Set.Icc (-(Real.pi / 2)) (Real.pi / 2) := ⟨by linarith, by linarith⟩
    have m3 : φ ∈ Set.Icc (-(Real.pi / 2)) (Real.pi / 2) := ⟨p1.le, p2.le⟩
    have s1 := Real.strictMonoOn_sin.lt_iff_lt m1 m3
    have s2 := Real.strictMonoOn_sin.lt_iff_lt m3 m2
    rw [Real.sin_sub] at s1
    rw [Real.sin_add] at s2
    constructor
    · rintro ⟨a, b⟩
      have := s1.mp (by linarith)
      have := s2.mp (by linarith)
      constructor <;> linarith
    · rintro ⟨a, b⟩
      have := s1.mpr (by linarith)
      have := s2.mpr (by linarith)
      constructor <;> linarith
  constructor
  · rintro ⟨-, h, -, -⟩; exact key.mp h
  · intro h
    refine ⟨Or.inl hx0, key.mpr h, ?_, hz⟩
    show |r * 0| < L / 2
    rw [mul_zero, abs_zero]; linarith

/-- C139, refuted for detectors at grazing angles.  Whenever the detector's angle plus half of its half angle of view is 90° or
more, a photon flying from the sample straight to the centre of the detector is not counted. -/
theorem C139_centre_ray_refuted {nev nt : ℕ} {indices : Fin nt → ℕ} {px py pz : Fin (nev + 1) → Fin nt → ℝ}
    {kx ky kz : Fin nev → Fin nt → ℝ} {ns nm : ℝ} {j : Fin nt} {θ L D : ℝ}
    (H : LeavesAtCentre indices px py pz kx ky kz ns nm j (towards θ)) (hθ : 0 < θ ∧ θ < Real.pi / 2)
    (hL : 0 < L) (hD : 0 < D) (hbig : Real.pi / 2 ≤ θ + halfWidth L D / 2) :
    MeetsSquare θ L D (towards θ) ∧ calcIndicesDetected indices px py pz kx ky kz θ L D ns nm j = 0 := by
  obtain ⟨hw0, hw1, hDr, hLr⟩ := halfWidth_facts hL hD
  have hab : |θ| < Real.pi / 2 := by rw [abs_of_pos hθ.1]; exact hθ.2
  refine ⟨(meetsSquare_plane hL hD hab hab).mpr (by rw [sub_self, abs_zero]; exact hw0), ?_⟩
  have hnot : ¬ calcIndicesDetected indices px py pz kx ky kz θ L D ns nm j = indices j := by
    rw [H.detected_iff hθ.2 hD]
    rintro ⟨-, h, -, -⟩
    have hr0 : 0 < Real.sqrt (D ^ 2 + (L / 2) ^ 2) := Real.sqrt_pos.mpr (by positivity)
    set r := Real.sqrt (D ^ 2 + (L / 2) ^ 2)
    set α := halfWidth L D
    have e1 : D * Real.sin θ = r * (Real.cos α * Real.sin θ) := by rw [← mul_assoc, ← hDr]
    have e2 : L * Real.cos θ / 2 = r * (Real.sin α * Real.cos θ) := by rw [← mul_assoc, ← hLr]; ring
    rw [e1, e2] at h
    have h1 := (abs_lt.mp h).2
    have h2 : r * Real.sin θ < r * Real.sin (θ + α) := by
      rw [Real.sin_add]
      have : r * (towards θ).x = r * Real.sin θ := rfl
      linarith
    have h3 := lt_of_mul_lt_mul_left h2 hr0.le
    have h4 : Real.sin (θ + α) ≤ Real.sin θ := by
      rw [← Real.sin_pi_sub (θ + α)]
      exact Real.sin_le_sin_of_le_of_le_pi_div_two (by linarith) hθ.2.le (by linarith)
    linarith
  rcases (C26_detected_iff indices px py pz kx ky kz (θ := θ) (L := L) (D := D) H.sample H.medium hθ.2 j H.exits H.unit
    H.slanted).1 with h | h
  · exact h
  · exact absurd h hnot

/-- C139, a detector on the normal of the sample: every photon leaving at the centre that meets the square, except exactly
along the normal, is counted. -/
theorem C139_on_normal_partial {nev nt : ℕ} {indices : Fin nt → ℕ} {px py pz : Fin (nev + 1) → Fin nt → ℝ}
    {kx ky kz : Fin nev → Fin nt → ℝ} {ns nm : ℝ} {j : Fin nt} {k2 : V3}
    (H : LeavesAtCentre indices px py pz kx ky kz ns nm j k2) (hslant : k2.x ≠ 0 ∨ k2.y ≠ 0) {L D : ℝ} (hL : 0 < L) (hD : 0 < D)
    (hmeet : MeetsSquare 0 L D k2) : calcIndicesDetected indices px py pz kx ky kz 0 L D ns nm j = indices j := by
  obtain ⟨t, u, v, ht, hu, hv, he⟩ := hmeet
  simp only [V3.smul, V3.add, towards, V3.mk.injEq, Real.sin_zero, Real.cos_zero] at he
  obtain ⟨hx, hy, hz⟩ := he
  have hk : k2.x * k2.x + k2.y * k2.y + k2.z * k2.z = 1 := H.refracted.1
  have hr0 : 0 < Real.sqrt (D ^ 2 + (L / 2) ^ 2) := Real.sqrt_pos.mpr (by positivity)
  have hrr : Real.sqrt (D ^ 2 + (L / 2) ^ 2) ^ 2 = D ^ 2 + (L / 2) ^ 2 := Real.sq_sqrt (by positivity)
  rw [H.detected_iff (by positivity) hD]
  have htt : t * t = D * D + u * u + v * v := by
    have hx' : t * k2.x = u := by linarith
    have hy' : t * k2.y = v := by linarith
    have hz' : t * k2.z = -D := by linarith
    calc t * t = t * t * (k2.x * k2.x + k2.y * k2.y + k2.z * k2.z) := by rw [hk, mul_one]
      _ = (t * k2.x) * (t * k2.x) + (t * k2.y) * (t * k2.y) + (t * k2.z) * (t * k2.z) := by ring
      _ = _ := by rw [hx', hy', hz']; ring
  have main : ∀ c s : ℝ, t * c = s → |s| < L / 2 → s * s ≤ u * u + v * v →
      |Real.sqrt (D ^ 2 + (L / 2) ^ 2) * c| < L / 2 := by
    intro c s hc hs hle
    apply abs_lt_of_sq_lt_sq _ (by positivity)
    rw [mul_pow, hrr]
    have hs2 : s * s < (L / 2) ^ 2 := by
      have := abs_lt.mp hs; nlinarith
    have hcc : c ^ 2 * (t * t) = s * s := by rw [← hc]; ring
    have htp : 0 < t * t := by positivity
    -- (D² + (L/2)²) s² < (L/2)² t², as s² < (L/2)² and t² ≥ D² + s²
    have : (D ^ 2 + (L / 2) ^ 2) * c ^ 2 * (t * t) < (L / 2) ^ 2 * (t * t) := by
      rw [mul_assoc, hcc]
      have h1 : D ^ 2 * (s * s) < D ^ 2 * (L / 2) ^ 2 := mul_lt_mul_of_pos_left hs2 (by positivity)
      have h2 : (L / 2) ^ 2 * (s * s) ≤ (L / 2) ^ 2 * (u * u + v * v) := mul_le_mul_of_nonneg_left hle (by positivity)
      rw [htt]; nlinarith
    exact lt_of_mul_lt_mul_right this htp.le
  refine ⟨hslant, ?_, main _ v (by linarith) hv (by nlinarith [mul_self_nonneg u]), ?_⟩
  · rw [Real.sin_zero, Real.cos_zero, mul_zero, sub_zero, mul_one]
    exact main _ u (by linarith) hu (by nlinarith [mul_self_nonneg v])
  · by_contra h
    push Not at h
    have := mul_nonneg ht.le h
    linarith

/-- one photon that left an index-matched film at the origin along `k` -/
private theorem demoCentre (k : V3) (hk : k.normSq = 1) (hz : k.z < 0) :
    LeavesAtCentre (nev := 1) (nt := 1) (fun _ => 1) (fun i _ => if i = 0 then -k.x else k.x) (fun i _ => if i = 0 then -k.y else k.y)
      (fun i _ => if i = 0 then -k.z else k.z) (fun _ _ => k.x) (fun _ _ => k.y) (fun _ _ => k.z) 1 1 0 k where
  sample := one_pos
  medium := one_pos
  exits := one_pos
  unit := hk
  slanted := hz.ne
  centre := ⟨-1, by ext <;> simp [evRow, sel, V3.zero, V3.add, V3.smul]⟩
  refracted := by
    refine ⟨hk, by simp [V3.dot]; exact hz.le, ?_⟩
    have : (evRow (nev := 1) (nt := 1) (fun _ _ => k.x) (fun _ _ => k.y) (fun _ _ => k.z) (fun _ => 1) 0) = k := by
      ext <;> simp [evRow, sel]
    rw [this, abs_of_neg hz, neg_neg]

/-- C139, refuted on the normal: a photon that passes a detector on the normal of the sample by its corner is counted.  A
square of side 6 at distance 4; the photon leaves along (6, 6, -7)/11, and crosses the plane of the detector at (24/7, 24/7),
outside the square. -/
theorem C139_corner_refuted :
    ∃ k : V3, LeavesAtCentre (nev := 1) (nt := 1) (fun _ => 1) (fun i _ => if i = 0 then -k.x else k.x)
        (fun i _ => if i = 0 then -k.y else k.y) (fun i _ => if i = 0 then -k.z else k.z)
        (fun _ _ => k.x) (fun _ _ => k.y) (fun _ _ => k.z) 1 1 0 k ∧
      ¬ MeetsSquare 0 6 4 k ∧
      calcIndicesDetected (nev := 1) (nt := 1) (fun _ => 1) (fun i _ => if i = 0 then -k.x else k.x)
        (fun i _ => if i = 0 then -k.y else k.y) (fun i _ => if i = 0 then -k.z else k.z)
        (fun _ _ => k.x) (fun _ _ => k.y) (fun _ _ => k.z) 0 6 4 1 1 0 = 1 := by
  have H := demoCentre ⟨6 / 11, 6 / 11, -(7 / 11)⟩ (by norm_num [V3.normSq, V3.dot]) (by norm_num)
  refine ⟨⟨6 / 11, 6 / 11, -(7 / 11)⟩, H, ?_, ?_⟩
  · rintro ⟨t, u, v, ht, hu, hv, he⟩
    simp only [V3.smul, V3.add, towards, V3.mk.injEq, Real.sin_zero, Real.cos_zero] at he
    obtain ⟨hx, hy, hz⟩ := he
    have := (abs_lt.mp hu).2
    linarith
  · refine (H.detected_iff (by positivity) (by norm_num)).mpr ?_
    have hr : Real.sqrt (4 ^ 2 + (6 / 2) ^ 2) = 5 := by
      rw [show (4 : ℝ) ^ 2 + (6 / 2) ^ 2 = 5 ^ 2 by norm_num]; exact Real.sqrt_sq (by norm_num)
    rw [hr, Real.sin_zero, Real.cos_zero]
    norm_num [abs_lt]

/-- Non-vacuity of `C139_square_detector_partial` and `C139_on_normal_partial`: detectors of side 6 at distance 4 on the normal,
and the photon along (7, 0, -24)/25: its angle is `arctan (7/24)`, less than the half angle of view `arctan (3/4)`. -/
example : ∃ φ, |φ| < Real.pi / 2 ∧ φ ≠ 0 ∧ |(0 : ℝ)| + halfWidth 6 4 ≤ Real.pi / 2 ∧ |φ - 0| < halfWidth 6 4 ∧
    MeetsSquare 0 6 4 (towards φ) ∧ ∃ px py pz : Fin 2 → Fin 1 → ℝ, ∃ kx ky kz : Fin 1 → Fin 1 → ℝ,
      LeavesAtCentre (fun _ => 1) px py pz kx ky kz 1 1 0 (towards φ) := by
  have hpos : 0 < Real.arctan (7 / 24) := Real.arctan_pos.mpr (by norm_num)
  have hlt := Real.arctan_lt_pi_div_two (7 / 24)
  have habs : |Real.arctan (7 / 24)| < Real.pi / 2 := by rw [abs_of_pos hpos]; exact hlt
  have hw : |Real.arctan (7 / 24) - 0| < halfWidth 6 4 := by
    rw [sub_zero, abs_of_pos hpos]
    exact Real.arctan_strictMono (by norm_num)
  refine ⟨Real.arctan (7 / 24), habs, hpos.ne', ?_, hw, ?_, _, _, _, _, _, _, demoCentre _ ?_ ?_⟩
  · rw [abs_zero, zero_add]; exact (Real.arctan_lt_pi_div_two _).le
  · exact (meetsSquare_plane (by norm_num) (by norm_num) (by rw [abs_zero]; positivity) habs).mpr hw
  · simp only [towards, V3.normSq, V3.dot]
    have := Real.sin_sq_add_cos_sq (Real.arctan (7 / 24))
    nlinarith
  · simp only [towards]
    have := Real.cos_arctan_pos (7 / 24)
    linarith

/-- Non-vacuity of `C139_centre_ray_refuted`: a detector of side 6 at distance 4 (half angle of view 36.9°) at 71.6°. -/
example : ∃ θ : ℝ, (0 < θ ∧ θ < Real.pi / 2) ∧ Real.pi / 2 ≤ θ + halfWidth 6 4 / 2 ∧
    ∃ px py pz : Fin 2 → Fin 1 → ℝ, ∃ kx ky kz : Fin 1 → Fin 1 → ℝ,
      LeavesAtCentre (fun _ => 1) px py pz kx ky kz 1 1 0 (towards θ) := by
  obtain ⟨hw0, hw1, -, -⟩ := halfWidth_facts (L := 6) (D := 4) (by norm_num) (by norm_num)
  refine ⟨Real.pi / 2 - halfWidth 6 4 / 2, ⟨by linarith, by linarith⟩, by linarith, _, _, _, _, _, _, demoCentre _ ?_ ?_⟩
  · simp only [towards, V3.normSq, V3.dot]
    have := Real.sin_sq_add_cos_sq (Real.pi / 2 - halfWidth 6 4 / 2)
    nlinarith
  · simp only [towards]
    have : 0 < Real.cos (Real.pi / 2 - halfWidth 6 4 / 2) := Real.cos_pos_of_mem_Ioo ⟨by linarith, by linarith⟩
    linarith

end
end Verif.Props
