import Verif.Props.Init

/-!
# C37 (spherical samples) and C41 (coarse roughness)
-/

namespace Verif.Props
open Verif.Init Verif.Spec Verif.XF Verif.Geometry
open Verif (XF PyErr)

variable {nt : ℕ}

/-! ### C37 -/

/-- the inward unit normal at the point `q` of the sphere of radius `R` centred at `(0,0,R)` -/
noncomputable def inwardNormal (R : ℝ) (q : V3) : V3 := V3.smul (1 / R) (V3.sub ⟨0, 0, R⟩ q)

/-- a point of the illuminated hemisphere of the sphere of radius `R` touching the plane z = 0 at the origin, inside a circular
spot of diameter `spot` -/
structure OnSphere (R spot : ℝ) (q : V3) : Prop where
  surface : (V3.sub q ⟨0, 0, R⟩).normSq = R ^ 2
  above : 0 ≤ q.z
  illuminated : q.z ≤ R
  spot : q.x ^ 2 + q.y ^ 2 ≤ (spot / 2) ^ 2

theorem spherePoint_eq {R spot ur uth : ℝ} (hR : 0 < R) (hs : 0 < spot) (hsR : spot ≤ 2 * R) (h0 : 0 ≤ ur) (h1 : ur < 1) :
    ∃ q, spherePoint R spot ur uth = ofV3 q ∧ OnSphere R spot q ∧ q.x ^ 2 + q.y ^ 2 = ur * (spot / 2) ^ 2 := by
  set x := Real.sqrt ur * spot / 2 * Real.cos (2 * Real.pi * uth) with hx
  set y := Real.sqrt ur * spot / 2 * Real.sin (2 * Real.pi * uth) with hy
  have hxy : x ^ 2 + y ^ 2 = ur * (spot / 2) ^ 2 := by
    have h2 : Real.sqrt ur ^ 2 = ur := Real.sq_sqrt h0
    rw [hx, hy]
    calc (√ur * spot / 2 * Real.cos (2 * Real.pi * uth)) ^ 2 + (√ur * spot / 2 * Real.sin (2 * Real.pi * uth)) ^ 2
        = √ur ^ 2 * (spot / 2) ^ 2 * (Real.sin (2 * Real.pi * uth) ^ 2 + Real.cos (2 * Real.pi * uth) ^ 2) := by ring
      _ = _ := by rw [Real.sin_sq_add_cos_sq, h2, mul_one]
  have hsq : (spot / 2) ^ 2 ≤ R ^ 2 := by
    apply pow_le_pow_left₀ (by positivity); linarith
  have hle : ur * (spot / 2) ^ 2 ≤ (spot / 2) ^ 2 := by nlinarith [sq_nonneg (spot / 2)]
  have hnn : 0 ≤ R * R - x * x - y * y := by nlinarith
  have hss := Real.sq_sqrt hnn
  have hs0 := Real.sqrt_nonneg (R * R - x * x - y * y)
  refine ⟨⟨x, y, R - Real.sqrt (R * R - x * x - y * y)⟩, ?_, ⟨?_, ?_, ?_, ?_⟩, hxy⟩
  · simp only [spherePoint, ← hx, ← hy, XF.sqrt, if_pos hnn, fin_sub, ofV3, finV]
  · simp only [V3.normSq, V3.dot, V3.sub]; nlinarith
  · show 0 ≤ R - Real.sqrt (R * R - x * x - y * y)
    have : Real.sqrt (R * R - x * x - y * y) ≤ R := by
      rw [Real.sqrt_le_left hR.le]; nlinarith [sq_nonneg x, sq_nonneg y]
    linarith
  · show R - Real.sqrt (R * R - x * x - y * y) ≤ R
    linarith
  · show x ^ 2 + y ^ 2 ≤ (spot / 2) ^ 2
    linarith

theorem OnSphere.normal_unit {R spot : ℝ} {q : V3} (h : OnSphere R spot q) (hR : 0 < R) : (inwardNormal R q).normSq = 1 := by
  have := h.surface
  have hR' := hR.ne'
  simp only [inwardNormal, V3.normSq, V3.dot, V3.smul, V3.sub] at this ⊢
  field_simp
  nlinarith

theorem negNormal_eq {R spot : ℝ} {q : V3} (h : OnSphere R spot q) (hR : 0 < R) :
    negNormal R (ofV3 q) = ofV3 (inwardNormal R q) := by
  have hs := h.surface
  have hm : XF.sqrt (fin (q.x * q.x + q.y * q.y + (q.z - R) * (q.z - R))) = fin R := by
    have e : q.x * q.x + q.y * q.y + (q.z - R) * (q.z - R) = R * R := by
      simp only [V3.normSq, V3.dot, V3.sub] at hs; linarith
    rw [e, sqrt_fin_sq hR.le]
  simp only [negNormal, ofV3, finV, fin_sub, fin_mul, fin_add, hm, fin_neg, fin_div _ hR.ne', inwardNormal, V3.smul, V3.sub]
  congr 2 <;> ring

theorem sphere_direction {R spot nm ns : ℝ} {q : V3} (h : OnSphere R spot q) (hR : 0 < R) (hm : 0 < nm) (hs : 0 < ns)
    (hoff : 0 < q.x ^ 2 + q.y ^ 2)
    (hle : nm * Real.sqrt (1 - (inwardNormal R q).z ^ 2) ≤ ns) :
    ∃ k, direction (Root.refraction1 (XF.arccos (negNormal R (ofV3 q)).z) (XF.abs (fin nm)) (XF.abs (fin ns)))
      ((negNormal R (ofV3 q)).x / XF.sin (XF.arccos (negNormal R (ofV3 q)).z))
      ((negNormal R (ofV3 q)).y / XF.sin (XF.arccos (negNormal R (ofV3 q)).z)) = ofV3 k ∧
      RefractedAt nm ns ⟨0, 0, 1⟩ (inwardNormal R q) k := by
  rw [negNormal_eq h hR]
  have hu := h.normal_unit hR
  set N := inwardNormal R q with hN
  have hNz : N.x ^ 2 + N.y ^ 2 = 1 - N.z ^ 2 := by
    simp only [V3.normSq, V3.dot] at hu; linarith
  have hpos : 0 < 1 - N.z ^ 2 := by
    rw [← hNz, hN]
    simp only [inwardNormal, V3.smul, V3.sub]
    have hR' := hR.ne'
    have : (1 / R * (0 - q.x)) ^ 2 + (1 / R * (0 - q.y)) ^ 2 = (q.x ^ 2 + q.y ^ 2) / R ^ 2 := by field_simp; ring
    rw [this]; positivity
  have hz1 : -1 ≤ N.z ∧ N.z ≤ 1 := by constructor <;> nlinarith
  set S := Real.sqrt (1 - N.z ^ 2) with hS
  have hS0 : 0 < S := Real.sqrt_pos.mpr hpos
  have hSS : S ^ 2 = 1 - N.z ^ 2 := Real.sq_sqrt hpos.le
  have ha : XF.arccos (ofV3 N).z = fin (Real.arccos N.z) := arccos_of_mem hz1.1 hz1.2
  have hsin : Real.sin (Real.arccos N.z) = S := Real.sin_arccos _
  rw [ha]
  simp only [sin_fin, hsin]
  show ∃ k, direction _ ((fin N.x : XF) / fin S) ((fin N.y : XF) / fin S) = ofV3 k ∧ _
  rw [fin_div _ hS0.ne', fin_div _ hS0.ne', direction_refr hs (by rw [hsin, abs_of_pos hS0]; exact hle) hm, hsin]
  refine ⟨_, rfl, ?_, ?_, ?_⟩
  · have h1 : (nm / ns * S) ^ 2 ≤ 1 := by
      have : nm / ns * S ≤ 1 := by rw [div_mul_eq_mul_div, div_le_one hs]; exact hle
      have h0 : 0 ≤ nm / ns * S := by positivity
      nlinarith
    simp only [V3.normSq, V3.dot]
    rw [Real.mul_self_sqrt (by linarith)]
    have e : nm / ns * S * (N.x / S) = nm / ns * N.x := by field_simp
    have e2 : nm / ns * S * (N.y / S) = nm / ns * N.y := by field_simp
    rw [e, e2]
    have : (nm / ns * S) ^ 2 = (nm / ns) ^ 2 * (N.x ^ 2 + N.y ^ 2) := by rw [mul_pow, hSS, hNz]
    rw [this]; ring
  · simp only [V3.dot]
    have := Real.sqrt_nonneg (1 - (nm / ns * S) ^ 2)
    linarith
  · have hn := hs.ne'
    have hS' := hS0.ne'
    simp only [V3.smul, V3.cross]
    ext <;> simp only [] <;> field_simp <;> ring

/-- what a successful call for a sphere with a smooth surface returns -/
theorem sphere_result {a : Args nt} (hb : a.boundary = .sphere) (hc : a.coarse_roughness = 0) {d : ℝ}
    (hd : a.sample_diameter = some d) {p : Props0 nt} (hok : initializeTraj a = .ok p) :
    (∀ n j, p.weight0 n j = 1) ∧ (∀ n j, n ≠ 0 → p.r0 n j = finV 0 0 0 ∧ p.k0 n j = finV 0 0 0) ∧
    (∀ j, p.r0 0 j = spherePoint (d / 2) a.spot_size (a.ur j) (a.uth j)) ∧
    (∀ j, p.k0 0 j = direction
      (Root.refraction1 (XF.arccos (negNormal (d / 2) (p.r0 0 j)).z) (XF.abs (fin a.n_medium)) (XF.abs (fin a.n_sample)))
      ((negNormal (d / 2) (p.r0 0 j)).x / XF.sin (XF.arccos (negNormal (d / 2) (p.r0 0 j)).z))
      ((negNormal (d / 2) (p.r0 0 j)).y / XF.sin (XF.arccos (negNormal (d / 2) (p.r0 0 j)).z))) := by
  unfold initializeTraj at hok
  rw [hb] at hok
  simp only [hd] at hok
  rw [enter, if_pos hc] at hok
  injection hok with hok
  subst hok
  refine ⟨fun _ _ => rfl, fun n j hn => by dsimp only; exact ⟨firstRow_succ _ hn j, firstRow_succ _ hn j⟩, ?_, ?_⟩
  · intro j; dsimp only; rw [firstRow_zero]
  · intro j; dsimp only; rw [firstRow_zero, firstRow_zero]

/-- C37, the start points.  For every random stream and a spot not larger than the sphere, all photons start on the surface of
the sphere, on its illuminated hemisphere and inside the spot; all weights are 1. -/
theorem C37_sphere_positions_partial (a : Args nt) (hb : a.boundary = .sphere) (hc : a.coarse_roughness = 0) {d : ℝ}
    (hd : a.sample_diameter = some d) (hd0 : 0 < d) (hs : 0 < a.spot_size) (hsd : a.spot_size ≤ d)
    (hu : ∀ j, 0 ≤ a.ur j ∧ a.ur j < 1) (p : Props0 nt) (hok : initializeTraj a = .ok p) :
    (∀ n j, p.weight0 n j = 1) ∧ (∀ n j, n ≠ 0 → p.r0 n j = finV 0 0 0 ∧ p.k0 n j = finV 0 0 0) ∧
    ∀ j, ∃ q, p.r0 0 j = ofV3 q ∧ OnSphere (d / 2) a.spot_size q := by
  obtain ⟨h1, h2, h3, -⟩ := sphere_result hb hc hd hok
  refine ⟨h1, h2, fun j => ?_⟩
  obtain ⟨q, hq, hq', -⟩ := spherePoint_eq (R := d / 2) (uth := a.uth j) (by linarith) hs (by linarith) (hu j).1 (hu j).2
  exact ⟨q, (h3 j).trans hq, hq'⟩

/-- C37, what the direction is.  For a start point off the axis whose normal direction can be refracted, the first direction is
a unit vector in the plane of incidence, but it is the refraction *of the inward normal at a horizontal surface* instead of
the refraction of the incident (vertical) ray at the surface of the sphere. -/
theorem C37_sphere_direction_partial (a : Args nt) (hb : a.boundary = .sphere) (hc : a.coarse_roughness = 0) {d : ℝ}
    (hd : a.sample_diameter = some d) (hd0 : 0 < d) (hs : 0 < a.spot_size) (hsd : a.spot_size ≤ d) (hm : 0 < a.n_medium)
    (hns : a.n_medium ≤ a.n_sample) (hu : ∀ j, 0 < a.ur j ∧ a.ur j < 1) (p : Props0 nt) (hok : initializeTraj a = .ok p) (j : Fin nt) :
    ∃ q k, p.r0 0 j = ofV3 q ∧ OnSphere (d / 2) a.spot_size q ∧ p.k0 0 j = ofV3 k ∧ k.normSq = 1 ∧
      V3.dot k (V3.cross ⟨0, 0, 1⟩ (inwardNormal (d / 2) q)) = 0 ∧
      RefractedAt a.n_medium a.n_sample ⟨0, 0, 1⟩ (inwardNormal (d / 2) q) k := by
  obtain ⟨-, -, h3, h4⟩ := sphere_result hb hc hd hok
  have hR : 0 < d / 2 := by linarith
  obtain ⟨q, hq, hq', hxy⟩ := spherePoint_eq (R := d / 2) (uth := a.uth j) hR hs (by linarith) (hu j).1.le (hu j).2
  have hoff : 0 < q.x ^ 2 + q.y ^ 2 := by rw [hxy]; have := (hu j).1; positivity
  have hle : a.n_medium * Real.sqrt (1 - (inwardNormal (d / 2) q).z ^ 2) ≤ a.n_sample := by
    have : Real.sqrt (1 - (inwardNormal (d / 2) q).z ^ 2) ≤ 1 := by
      exact Real.sqrt_le_iff.mpr ⟨zero_le_one, by nlinarith [sq_nonneg (inwardNormal (d / 2) q).z]⟩
    nlinarith
  obtain ⟨k, hk, hk'⟩ := sphere_direction hq' hR hm (hm.trans_le hns) hoff hle
  have h3' := (h3 j).trans hq
  refine ⟨q, k, h3', hq', ?_, hk'.1, ?_, hk'⟩
  · rw [h4 j, h3']; exact hk
  · have hc2 := hk'.2.2
    have hn : a.n_sample ≠ 0 := (hm.trans_le hns).ne'
    simp only [V3.smul, V3.cross, V3.mk.injEq] at hc2
    obtain ⟨e1, e2, -⟩ := hc2
    simp only [V3.dot, V3.cross]
    have hx : a.n_sample * k.x = a.n_medium * (inwardNormal (d / 2) q).x := by linarith
    have hy : a.n_sample * k.y = a.n_medium * (inwardNormal (d / 2) q).y := by linarith
    have : a.n_sample * (k.x * (0 * (inwardNormal (d / 2) q).z - 1 * (inwardNormal (d / 2) q).y) +
        k.y * (1 * (inwardNormal (d / 2) q).x - 0 * (inwardNormal (d / 2) q).z) +
        k.z * (0 * (inwardNormal (d / 2) q).y - 0 * (inwardNormal (d / 2) q).x)) = 0 := by
      linear_combination (-(inwardNormal (d / 2) q).y) * hx + (inwardNormal (d / 2) q).x * hy
    exact (mul_eq_zero.mp this).resolve_left hn

/-- C37 is false of the code: with equal indices inside and outside (no refraction at all) every photon that starts off the
axis is turned to head for the centre of the sphere, whereas it should continue straight down the z axis.  In particular its
direction is not the refraction of the incident direction at the local normal. -/
theorem C37_sphere_direction_refuted (a : Args nt) (hb : a.boundary = .sphere) (hc : a.coarse_roughness = 0) {d : ℝ}
    (hd : a.sample_diameter = some d) (hd0 : 0 < d) (hs : 0 < a.spot_size) (hsd : a.spot_size ≤ d) (hm : 0 < a.n_medium)
    (hns : a.n_medium = a.n_sample) (hu : ∀ j, 0 < a.ur j ∧ a.ur j < 1) (p : Props0 nt) (hok : initializeTraj a = .ok p)
    (j : Fin nt) :
    ∃ q, p.r0 0 j = ofV3 q ∧ OnSphere (d / 2) a.spot_size q ∧ p.k0 0 j = ofV3 (inwardNormal (d / 2) q) ∧
      ¬ RefractedAt a.n_medium a.n_sample (inwardNormal (d / 2) q) ⟨0, 0, 1⟩ (inwardNormal (d / 2) q) := by
  obtain ⟨q, k, h1, h2, h3, hu1, -, h4⟩ := C37_sphere_direction_partial a hb hc hd hd0 hs hsd hm hns.le hu p hok j
  have hR : 0 < d / 2 := by linarith
  have hNu := h2.normal_unit hR
  set N := inwardNormal (d / 2) q with hN
  have hNz : 0 ≤ N.z := by
    rw [hN]
    simp only [inwardNormal, V3.smul, V3.sub]
    have h5 := h2.illuminated
    have : 0 ≤ 1 / (d / 2) := by positivity
    exact mul_nonneg this (by linarith)
  have hkN : k = N := by
    obtain ⟨hk1, hk2, hk3⟩ := h4
    rw [← hns] at hk3
    simp only [V3.smul, V3.cross, V3.mk.injEq] at hk3
    obtain ⟨e1, e2, -⟩ := hk3
    have hm' := hm.ne'
    have hx : k.x = N.x := by
      have : a.n_medium * (k.x - N.x) = 0 := by linarith
      linarith [(mul_eq_zero.mp this).resolve_left hm']
    have hy : k.y = N.y := by
      have : a.n_medium * (k.y - N.y) = 0 := by linarith
      linarith [(mul_eq_zero.mp this).resolve_left hm']
    have hz : k.z = N.z := by
      simp only [V3.dot] at hk2
      simp only [V3.normSq, V3.dot, hx, hy] at hk1 hNu
      have hkz : 0 ≤ k.z := by linarith
      nlinarith
    ext <;> assumption
  refine ⟨q, h1, h2, by rw [h3, hkN], ?_⟩
  intro hr
  have h6 := hr.2.2
  simp only [V3.smul, V3.cross, V3.mk.injEq] at h6
  obtain ⟨e1, e2, -⟩ := h6
  obtain ⟨-, -, h3', -⟩ := sphere_result hb hc hd hok
  obtain ⟨q', hq, -, hxy⟩ := spherePoint_eq (R := d / 2) (uth := a.uth j) hR hs (by linarith) (hu j).1.le (hu j).2
  have hqq : q' = q := by
    have := (h3' j).trans hq
    rw [h1] at this
    exact (ofV3_inj.mp this).symm
  have hpos : 0 < q.x ^ 2 + q.y ^ 2 := by rw [← hqq, hxy]; have := (hu j).1; positivity
  have hNx : N.x = -(1 / (d / 2)) * q.x := by rw [hN]; simp only [inwardNormal, V3.smul, V3.sub]; ring
  have hNy : N.y = -(1 / (d / 2)) * q.y := by rw [hN]; simp only [inwardNormal, V3.smul, V3.sub]; ring
  have hm' := hm.ne'
  have hd' : 1 / (d / 2) ≠ 0 := by positivity
  have z1 : N.y = 0 := by
    have : a.n_medium * N.y = 0 := by linarith
    exact (mul_eq_zero.mp this).resolve_left hm'
  have z2 : N.x = 0 := by
    have : a.n_medium * N.x = 0 := by linarith
    exact (mul_eq_zero.mp this).resolve_left hm'
  rw [hNy] at z1
  rw [hNx] at z2
  have q1 : q.y = 0 := (mul_eq_zero.mp z1).resolve_left (neg_ne_zero.mpr hd')
  have q2 : q.x = 0 := (mul_eq_zero.mp z2).resolve_left (neg_ne_zero.mpr hd')
  rw [q1, q2] at hpos
  norm_num at hpos

/-- C37 is also false on the axis: the draw 0 puts the photon at the pole and its direction is NaN (0/0). -/
theorem C37_sphere_pole_refuted (a : Args nt) (hb : a.boundary = .sphere) (hc : a.coarse_roughness = 0) {d : ℝ}
    (hd : a.sample_diameter = some d) (hd0 : 0 < d) (j : Fin nt) (hu : a.ur j = 0) (p : Props0 nt)
    (hok : initializeTraj a = .ok p) : p.r0 0 j = finV 0 0 0 ∧ (p.k0 0 j).x = nan ∧ (p.k0 0 j).y = nan := by
  obtain ⟨-, -, h3, h4⟩ := sphere_result hb hc hd hok
  have hR : 0 ≤ d / 2 := by linarith
  have e : p.r0 0 j = finV 0 0 0 := by
    rw [h3 j, hu]
    simp only [spherePoint, Real.sqrt_zero, zero_mul, zero_div]
    rw [show d / 2 * (d / 2) - 0 - 0 = d / 2 * (d / 2) by ring, sqrt_fin_sq hR]
    simp [finV]
  refine ⟨e, ?_⟩
  have hn : negNormal (d / 2) (finV 0 0 0) = finV 0 0 1 := by
    have h := negNormal_eq (R := d / 2) (spot := 0) (q := ⟨0, 0, 0⟩)
      ⟨by simp only [V3.normSq, V3.dot, V3.sub]; ring, le_rfl, hR, by norm_num⟩ (by linarith)
    rw [show ofV3 ⟨0, 0, 0⟩ = finV 0 0 0 from rfl] at h
    rw [h]
    simp only [inwardNormal, V3.smul, V3.sub, ofV3]
    have : d ≠ 0 := hd0.ne'
    congr 1
    · norm_num
    · norm_num
    · field_simp; norm_num
  rw [h4 j, e, hn]
  have ha : XF.arccos (finV 0 0 1).z = fin 0 := by
    show XF.arccos (fin 1) = _
    rw [arccos_of_mem (by norm_num) le_rfl, Real.arccos_one]
  have hz : (finV 0 0 1).x / XF.sin (fin 0) = nan := by
    show (fin 0 / fin (Real.sin 0) : XF) = nan
    rw [Real.sin_zero]; exact zero_div_zero
  have hz' : (finV 0 0 1).y / XF.sin (fin 0) = nan := hz
  rw [ha, hz, hz']
  simp [direction]

/-- Non-vacuity of C37: a sphere of diameter 2 and a draw of 1/4. -/
example : ∃ p, initializeTraj (nt := 1) ⟨1, 1, .sphere, 0, 0, none, 0, 0, none, 1, some 2, 0, fun _ => 0, fun _ => 0,
    fun _ => 0, fun _ => 0, fun _ => 1 / 4, fun _ => 0, fun _ => 0⟩ = .ok p := by
  have h := (C38_initialize_validation (nt := 1) ⟨1, 1, .sphere, 0, 0, none, 0, 0, none, 1, some 2, 0, fun _ => 0, fun _ => 0,
    fun _ => 0, fun _ => 0, fun _ => 1 / 4, fun _ => 0, fun _ => 0⟩)
  apply h.2.1 (by simp)
  rw [ne_eq, h.1]
  simp

/-! ### C41 -/

/-- normal of a facet sloped by `a` about the y axis (pointing into the sample) -/
noncomputable def facetNormal (a : ℝ) : V3 := ⟨Real.sin a, 0, Real.cos a⟩

theorem facet_unit (a : ℝ) : (facetNormal a).normSq = 1 := by
  simp only [facetNormal, V3.normSq, V3.dot]; nlinarith [Real.sin_sq_add_cos_sq a]

/-- the reflection of `k` at a surface with unit normal `n` -/
def mirrored (n k : V3) : V3 := V3.sub k (V3.smul (2 * V3.dot k n) n)

theorem coarse_eq {k : V3} (hk : k.normSq = 1) (nm ns a : ℝ) :
    let u := Real.cos a * k.x - Real.sin a * k.z
    coarseEnter (ofV3 k) nm ns a =
      (⟨fin (Real.cos a) * (XF.sin (Root.refraction1 (fin (Real.arccos (V3.dot k (facetNormal a)))) (fin nm) (fin ns)) * fin u) -
          fin (-Real.sin a) * XF.cos (Root.refraction1 (fin (Real.arccos (V3.dot k (facetNormal a)))) (fin nm) (fin ns)),
        XF.sin (Root.refraction1 (fin (Real.arccos (V3.dot k (facetNormal a)))) (fin nm) (fin ns)) * fin (Real.sqrt (1 - u ^ 2)),
        fin (-Real.sin a) * (XF.sin (Root.refraction1 (fin (Real.arccos (V3.dot k (facetNormal a)))) (fin nm) (fin ns)) * fin u) +
          fin (Real.cos a) * XF.cos (Root.refraction1 (fin (Real.arccos (V3.dot k (facetNormal a)))) (fin nm) (fin ns))⟩,
        fin (V3.dot k (facetNormal a)), fin (mirrored (facetNormal a) k).z) := by
  intro u
  set t := Real.sin a * k.x + Real.cos a * k.z with ht
  have hdot : V3.dot k (facetNormal a) = t := by simp only [V3.dot, facetNormal, ht]; ring
  have hone : u * u + k.y * k.y + t * t = 1 := by
    simp only [V3.normSq, V3.dot] at hk
    rw [ht]
    have := Real.sin_sq_add_cos_sq a
    linear_combination hk + (k.x ^ 2 + k.z ^ 2) * this
  have hs1 : XF.sqrt (fin 1) = fin 1 := by have := sqrt_fin_sq (s := 1) zero_le_one; simpa using this
  have hu1 : -1 ≤ u ∧ u ≤ 1 := by constructor <;> nlinarith [mul_self_nonneg k.y, mul_self_nonneg t]
  have ht1 : -1 ≤ t ∧ t ≤ 1 := by constructor <;> nlinarith [mul_self_nonneg k.y, mul_self_nonneg u]
  have hcos : Real.cos (2 * Real.pi - a) = Real.cos a := by rw [Real.cos_two_pi_sub]
  have hsin : Real.sin (2 * Real.pi - a) = -Real.sin a := by rw [Real.sin_two_pi_sub]
  have hz : (mirrored (facetNormal a) k).z = -Real.sin a * u + Real.cos a * -t := by
    have := Real.sin_sq_add_cos_sq a
    have hm : (mirrored (facetNormal a) k).z = k.z - 2 * V3.dot k (facetNormal a) * Real.cos a := rfl
    rw [hm, hdot]
    show k.z - 2 * t * Real.cos a = -Real.sin a * (Real.cos a * k.x - Real.sin a * k.z) + Real.cos a * -t
    rw [ht]; linear_combination (-k.z) * this
  have hr : (fin (Real.cos a) * (ofV3 k).x - fin (Real.sin a) * (ofV3 k).z : XF) = fin u := by simp [ofV3, finV, u]
  have hr2 : (fin (Real.sin a) * (ofV3 k).x + fin (Real.cos a) * (ofV3 k).z : XF) = fin t := by simp [ofV3, finV, ht]
  simp only [coarseEnter]
  rw [hr, hr2, show (ofV3 k).y = fin k.y from rfl, hcos, hsin]
  simp only [fin_mul, fin_add, hone, hs1, fin_div _ one_ne_zero, div_one, fin_neg]
  rw [arccos_of_mem hu1.1 hu1.2, arccos_of_mem ht1.1 ht1.2, hdot, hz]
  simp only [cos_fin, sin_fin, Real.cos_arccos hu1.1 hu1.2, Real.sin_arccos]

/-- C41, the part that holds.  For a unit incident direction `k` and a facet sloped by `a` that the light can enter, the
direction after `coarse_roughness_enter` is a unit vector on the inner side of the facet at the Snell angle from its normal;
the reported incident z-direction is the cosine of the angle of incidence on the facet, and the reported reflected z-direction
is that of the mirror reflection at the facet. -/
theorem C41_coarse_snell_partial {k : V3} (hk : k.normSq = 1) {nm ns a : ℝ} (hm : 0 < nm) (hs : 0 < ns)
    (hle : nm * (V3.cross (facetNormal a) k).norm ≤ ns) :
    ∃ k', coarseEnter (ofV3 k) nm ns a = (ofV3 k', fin (V3.dot k (facetNormal a)), fin (mirrored (facetNormal a) k).z) ∧
      k'.normSq = 1 ∧ 0 ≤ V3.dot k' (facetNormal a) ∧
      ns * (V3.cross (facetNormal a) k').norm = nm * (V3.cross (facetNormal a) k).norm := by
  have hsa : Real.sin (Real.arccos (V3.dot k (facetNormal a))) = (V3.cross (facetNormal a) k).norm := by
    rw [Real.sin_arccos, V3.norm]
    congr 1
    have h1 := lagrange (facetNormal a) k
    rw [facet_unit, hk] at h1
    have h2 : V3.dot (facetNormal a) k = V3.dot k (facetNormal a) := by simp only [V3.dot]; ring
    rw [h2] at h1
    linarith
  have hn0 : 0 ≤ (V3.cross (facetNormal a) k).norm := norm_nonneg' _
  set S := (V3.cross (facetNormal a) k).norm with hS
  set u := Real.cos a * k.x - Real.sin a * k.z with hu
  have hu2 : u ^ 2 ≤ 1 := by
    simp only [V3.normSq, V3.dot] at hk
    have := Real.sin_sq_add_cos_sq a
    have e : u ^ 2 + k.y ^ 2 + (Real.sin a * k.x + Real.cos a * k.z) ^ 2 = 1 := by
      rw [hu]; linear_combination hk + (k.x ^ 2 + k.z ^ 2) * this
    nlinarith [sq_nonneg k.y, sq_nonneg (Real.sin a * k.x + Real.cos a * k.z)]
  have hq0 : 0 ≤ nm / ns * S := by positivity
  have hq1 : nm / ns * S ≤ 1 := by rw [div_mul_eq_mul_div, div_le_one hs]; exact hle
  set w := nm / ns * S with hw
  have hrefr : Root.refraction1 (fin (Real.arccos (V3.dot k (facetNormal a)))) (fin nm) (fin ns) = fin (Real.arcsin w) := by
    rw [Root.refraction1_fin hs.ne', hsa, if_neg (not_lt.mpr (abs_le.mpr ⟨by linarith, hq1⟩))]
  have hsw : Real.sin (Real.arcsin w) = w := Real.sin_arcsin (by linarith) hq1
  have hcw : Real.cos (Real.arcsin w) = Real.sqrt (1 - w ^ 2) := Real.cos_arcsin w
  have hC : Real.sqrt (1 - w ^ 2) ^ 2 = 1 - w ^ 2 := Real.sq_sqrt (by nlinarith)
  have hV : Real.sqrt (1 - u ^ 2) ^ 2 = 1 - u ^ 2 := Real.sq_sqrt (by linarith)
  have hC0 := Real.sqrt_nonneg (1 - w ^ 2)
  set C := Real.sqrt (1 - w ^ 2)
  set V := Real.sqrt (1 - u ^ 2)
  have hsc := Real.sin_sq_add_cos_sq a
  refine ⟨⟨Real.cos a * (w * u) - -Real.sin a * C, w * V, -Real.sin a * (w * u) + Real.cos a * C⟩, ?_, ?_, ?_, ?_⟩
  · have e := coarse_eq hk nm ns a
    simp only at e
    rw [e, hrefr]
    simp only [sin_fin, cos_fin, hsw, hcw, fin_mul, fin_sub, fin_add, ofV3, finV]
    rfl
  · simp only [V3.normSq, V3.dot]
    linear_combination (w ^ 2 * u ^ 2 + C ^ 2) * hsc + w ^ 2 * hV + hC
  · have : V3.dot ⟨Real.cos a * (w * u) - -Real.sin a * C, w * V, -Real.sin a * (w * u) + Real.cos a * C⟩ (facetNormal a) = C := by
      simp only [V3.dot, facetNormal]; linear_combination C * hsc
    rw [this]; exact hC0
  · have : (V3.cross (facetNormal a) ⟨Real.cos a * (w * u) - -Real.sin a * C, w * V, -Real.sin a * (w * u) + Real.cos a * C⟩).norm = w := by
      apply norm_eq_of_normSq hq0
      simp only [V3.normSq, V3.dot, V3.cross, facetNormal]
      linear_combination w ^ 2 * hV * (Real.sin a ^ 2 + Real.cos a ^ 2) + w ^ 2 * hsc + w ^ 2 * u ^ 2 * hsc * (Real.sin a ^ 2 + Real.cos a ^ 2)
    rw [this, hw]
    field_simp

/-- C41 is false of the code: the refracted ray leaves the plane of incidence.  Light falling straight down on a facet sloped
by any angle `a` between 0 and 90 degrees, with no index difference at all, should go on straight down, but is given the
sideways component `sin a cos a`. -/
theorem C41_coarse_plane_refuted {n a : ℝ} (hn : 0 < n) (h0 : 0 < a) (h1 : a < Real.pi / 2) :
    ∃ k', (coarseEnter (ofV3 ⟨0, 0, 1⟩) n n a).1 = ofV3 k' ∧ k'.y = Real.sin a * Real.cos a ∧ k'.y ≠ 0 ∧
      RefractedAt n n (facetNormal a) ⟨0, 0, 1⟩ ⟨0, 0, 1⟩ ∧ ¬ RefractedAt n n (facetNormal a) ⟨0, 0, 1⟩ k' := by
  have hs : 0 < Real.sin a := Real.sin_pos_of_pos_of_lt_pi h0 (by linarith [Real.pi_pos])
  have hc : 0 < Real.cos a := Real.cos_pos_of_mem_Ioo ⟨by linarith, h1⟩
  have e := coarse_eq (k := ⟨0, 0, 1⟩) (by norm_num [V3.normSq, V3.dot]) n n a
  simp only at e
  have hdot : V3.dot ⟨0, 0, 1⟩ (facetNormal a) = Real.cos a := by simp [V3.dot, facetNormal]
  have hac : Real.arccos (Real.cos a) = a := Real.arccos_cos h0.le (by linarith)
  have hrefr : Root.refraction1 (fin a) (fin n) (fin n) = fin a := by
    rw [Root.refraction1_fin hn.ne', div_self hn.ne', one_mul, if_neg (not_lt.mpr (Real.abs_sin_le_one a)),
      Real.arcsin_sin (by linarith) h1.le]
  rw [hdot, hac, hrefr] at e
  have hsq : Real.sqrt (1 - (Real.cos a * 0 - Real.sin a * 1) ^ 2) = Real.cos a := by
    rw [show 1 - (Real.cos a * 0 - Real.sin a * 1) ^ 2 = Real.cos a ^ 2 by nlinarith [Real.sin_sq_add_cos_sq a], Real.sqrt_sq hc.le]
  rw [e, hsq]
  simp only [sin_fin, cos_fin, fin_mul, fin_sub, fin_add]
  refine ⟨⟨_, _, _⟩, rfl, rfl, (mul_pos hs hc).ne', ⟨by norm_num [V3.normSq, V3.dot], ?_, rfl⟩, ?_⟩
  · simp only [V3.dot, facetNormal]; linarith
  · intro h
    have h3 := h.2.2
    simp only [V3.smul, V3.cross, facetNormal, V3.mk.injEq] at h3
    have h4 := h3.2.2
    have : n * (Real.sin a * (Real.sin a * Real.cos a)) = 0 := by linarith
    have hpos : 0 < n * (Real.sin a * (Real.sin a * Real.cos a)) := by positivity
    linarith

/-- C41 at the level of `initialize`: for a film with coarse roughness the first direction of every photon is the result of
`coarse_roughness_enter` for a requested unit incident direction and the drawn slope, and a sphere is rejected. -/
theorem C41_initialize_coarse_partial (a : Args nt) (hc : a.coarse_roughness ≠ 0) :
    (a.boundary = .sphere → initializeTraj a = .error .valueError) ∧
    ∀ p, a.boundary = .film → initializeTraj a = .ok p → a.theta_min ≤ a.theta_max → a.phi_min ≤ a.phi_max →
      (∀ j, 0 ≤ a.ut j ∧ a.ut j < 1) → (∀ j, 0 ≤ a.up j ∧ a.up j < 1) →
      ∀ j, ∃ θ φ, Requested a.theta_data a.theta_min a.theta_max j θ ∧ Requested a.phi_data a.phi_min a.phi_max j φ ∧
        ∃ r s, p.kz0_rot = some r ∧ p.kz0_refl = some s ∧
          (p.k0 0 j, r j, s j) = coarseEnter (ofV3 (polar θ φ)) a.n_medium |a.n_sample| (a.theta_a j) := by
  constructor
  · intro hb
    exact (C38_initialize_validation a).1.mpr (Or.inr ⟨hb, Or.inr hc⟩)
  · intro p hf hok htl hpl ht hp j
    unfold initializeTraj at hok
    rw [hf] at hok
    simp only at hok
    split at hok
    · cases hok
    rcases hθ : incidence a.theta_data a.theta_min a.theta_max a.ut with e | θ
    · rw [hθ] at hok; simp only at hok; cases hok
    rw [hθ] at hok
    simp only at hok
    rcases hφ : incidence a.phi_data a.phi_min a.phi_max a.up with e | φ
    · rw [hφ] at hok; simp only at hok; cases hok
    rw [hφ] at hok
    simp only at hok
    rw [enter, if_neg hc, if_neg (by rw [hf]; simp)] at hok
    injection hok with hok
    subst hok
    refine ⟨θ j, φ j, incidence_requested hθ htl ht j, incidence_requested hφ hpl hp j, _, _, rfl, rfl, ?_⟩
    dsimp only
    rw [firstRow_zero]
    rfl

/-- Non-vacuity of C41: vertical light on a facet of slope 45 degrees, entering a denser medium. -/
example : (1 : ℝ) * (V3.cross (facetNormal (Real.pi / 4)) ⟨0, 0, 1⟩).norm ≤ 3 / 2 := by
  have h := lagrange (facetNormal (Real.pi / 4)) ⟨0, 0, 1⟩
  rw [facet_unit] at h
  have h1 : (V3.cross (facetNormal (Real.pi / 4)) ⟨0, 0, 1⟩).norm ≤ 1 := by
    rw [V3.norm]
    refine Real.sqrt_le_iff.mpr ⟨zero_le_one, ?_⟩
    have : (⟨0, 0, 1⟩ : V3).normSq = 1 := by norm_num [V3.normSq, V3.dot]
    rw [this] at h
    nlinarith [sq_nonneg (V3.dot (facetNormal (Real.pi / 4)) ⟨0, 0, 1⟩)]
  linarith

end Verif.Props
