import Verif.Props.SphereEstimator

/-!
# C134: the Monte Carlo model of a sphere and the unit of length
-/

namespace Verif.Props
noncomputable section
open Classical XF Verif.Spec Verif.Geometry Verif.Exits Verif.Fresnel Verif.Weights Verif.Restart Verif.SphereRun Verif.Root
open Verif.Geometry (XV)

variable {nev nt num : ℕ}

/-! ## Spec: the same trajectories in another unit -/

/-- positions in the other unit; directions and weights have none -/
def sphTrajsIn (c : ℝ) (t : SphTrajs nt) : SphTrajs nt := { t with position := fun i j => V3.smul c (t.position i j) }

/-! ## Scaling the geometry -/

private theorem sub_centre (c R : ℝ) (p : V3) : V3.sub (V3.smul c p) ⟨0, 0, c * R⟩ = V3.smul c (V3.sub p ⟨0, 0, R⟩) := by
  ext <;> simp only [V3.sub, V3.smul] <;> ring

private theorem exit_scale {R : ℝ} {p0 p1 k q : V3} (h : SphereExit R p0 p1 k q) {c : ℝ} (hc : 0 < c) :
    SphereExit (c * R) (V3.smul c p0) (V3.smul c p1) k (V3.smul c q) where
  radius := mul_pos hc h.radius
  inside := by
    rw [smul_normSq]
    have := h.inside
    nlinarith [mul_le_mul_of_nonneg_left this (mul_pos hc hc).le]
  outside := by
    rw [smul_normSq]
    have := h.outside
    nlinarith [mul_lt_mul_of_pos_left this (mul_pos hc hc)]
  bounded := by
    obtain ⟨h1, h2, h3⟩ := h.bounded
    simp only [Bounded, V3.smul, abs_mul, abs_of_pos hc]
    refine ⟨?_, ?_, ?_⟩ <;> nlinarith
  unit := h.unit
  step := by
    obtain ⟨d, hd, hs⟩ := h.step
    refine ⟨c * d, mul_pos hc hd, ?_⟩
    have e : V3.sub (V3.smul c p1) (V3.smul c p0) = V3.smul c (V3.sub p1 p0) := by
      ext <;> simp only [V3.sub, V3.smul] <;> ring
    rw [e, hs]
    ext <;> simp only [V3.smul] <;> ring
  crossing := by
    obtain ⟨t, ht, hq⟩ := h.crossing
    refine ⟨c * t, mul_pos hc ht, ?_⟩
    rw [hq]
    ext <;> simp only [V3.add, V3.smul] <;> ring
  surface := by
    rw [smul_normSq, h.surface]
    ring

private theorem normal_scale {c R : ℝ} (hc : 0 < c) (q : V3) : V3.smul (1 / (c * R)) (V3.smul c q) = V3.smul (1 / R) q := by
  have e : ∀ x : ℝ, 1 / (c * R) * (c * x) = 1 / R * x := by
    intro x
    rw [one_div_mul_eq_div, mul_div_mul_left _ _ hc.ne', one_div_mul_eq_div]
  ext <;> simp only [V3.smul, e]

/-- what `exit_kz` gives in another unit: its value has a part that grows with the number that expresses the radius -/
private theorem exitKz_in {R : ℝ} {p0 p1 k q : V3} (h : SphereExit R p0 p1 k q) {n1 n2 : ℝ} (h1 : 0 < n1) (h2 : 0 < n2)
    (htir : n1 * (V3.cross (V3.smul (1 / R) q) k).norm ≤ n2) :
    let θ := Real.arccos (V3.dot (V3.smul (1 / R) q) k)
    let α := Real.arcsin (n1 / n2 * Real.sin θ) - θ
    let u := V3.cross k (V3.smul (1 / R) q)
    (n1 ≠ n2 → V3.cross (V3.smul (1 / R) q) k ≠ V3.zero → Real.cos α < 1) ∧ ∀ c > 0,
      exitKz (ofV3 (V3.smul c p0)) (ofV3 (V3.smul c p1)) (ofV3 k) (2 * (c * R)) n1 n2 =
        fin ((Real.cos α * k.z + Real.sin α * (V3.cross u k).z + V3.dot u k * (1 - Real.cos α) * u.z) -
          c * (q.z * ((V3.dot (V3.smul (1 / R) q) k) ^ 2 * (1 - Real.cos α)))) := by
  intro θ' α' u'
  set n := V3.smul (1 / R) q with hn
  set θ := Real.arccos (V3.dot n k) with hθ
  have hs : Real.sin θ = (V3.cross n k).norm := sin_arccos_dot h.normal_unit h.unit
  have hpos := h.dot_pos
  rw [← hn] at hpos
  have hs0 : 0 ≤ Real.sin θ := by rw [hs]; exact norm_nonneg' _
  have hle : n1 / n2 * Real.sin θ ≤ 1 := by
    rw [hs, div_mul_eq_mul_div, div_le_one h2]
    exact htir
  have h0 : 0 ≤ n1 / n2 * Real.sin θ := by positivity
  have hr : refraction1 (fin θ) (fin n1) (fin n2) = fin (Real.arcsin (n1 / n2 * Real.sin θ)) := by
    rw [refraction1_fin h2.ne', if_neg]
    rw [abs_of_nonneg h0]
    exact not_lt.mpr hle
  set α := Real.arcsin (n1 / n2 * Real.sin θ) - θ with hα
  have hcr : (V3.cross k n).normSq = 1 - (V3.dot n k) ^ 2 := by
    have hl := lagrange k n
    rw [h.unit, h.normal_unit] at hl
    have : V3.dot k n = V3.dot n k := by simp only [V3.dot]; ring
    rw [this] at hl
    linarith
  change (_ → _ → Real.cos α < 1) ∧ ∀ c > 0, _ = fin ((Real.cos α * k.z + Real.sin α * (V3.cross (V3.cross k n) k).z +
    V3.dot (V3.cross k n) k * (1 - Real.cos α) * (V3.cross k n).z) - c * (q.z * ((V3.dot n k) ^ 2 * (1 - Real.cos α))))
  refine ⟨?_, ?_⟩
  · intro hne hcz
    refine lt_of_le_of_ne (Real.cos_le_one _) fun hone => hne ?_
    have hθ2 : θ ≤ Real.pi / 2 := by rw [hθ, Real.arccos_le_pi_div_two]; exact hpos.le
    have hθ0 : 0 ≤ θ := Real.arccos_nonneg _
    have ha := Real.arcsin_nonneg.mpr h0
    have ha2 := Real.arcsin_le_pi_div_two (n1 / n2 * Real.sin θ)
    have hz : α = 0 := by
      rw [Real.cos_eq_one_iff_of_lt_of_lt (by rw [hα]; linarith [Real.pi_pos]) (by rw [hα]; linarith [Real.pi_pos])] at hone
      exact hone
    have heq : Real.arcsin (n1 / n2 * Real.sin θ) = θ := by linarith
    have hsin : n1 / n2 * Real.sin θ = Real.sin θ := by
      have := Real.sin_arcsin (by linarith) hle
      rw [heq] at this
      exact this.symm
    have hsp : Real.sin θ ≠ 0 := by
      rw [hs]
      exact (norm_pos' hcz).ne'
    have : n1 / n2 = 1 := mul_right_cancel₀ hsp (by rw [hsin, one_mul])
    rwa [div_eq_one_iff_eq h2.ne'] at this
  · intro c hc
    have hx := exit_scale h hc
    rw [hx.exitKz_eq]
    dsimp only
    rw [normal_scale hc, ← hn, ← hθ, hr, fin_sub, ← hα, rotateRefract_fin, hcr]
    change fin _ = fin _
    rw [fin_inj]
    have hqz : q.z = R * n.z := by
      have := h.radius
      simp only [hn, V3.smul]
      field_simp
    simp only [V3.add, V3.sub, V3.smul, hqz]
    ring


private theorem leaves_scale {c R : ℝ} (hc : 0 < c) (pos : Fin (nev + 1) → V3) (e : Fin nev) :
    LeavesBall (c * R) ⟨0, 0, c * R⟩ (fun r => V3.smul c (pos r)) e ↔ LeavesBall R ⟨0, 0, R⟩ pos e := by
  have hcc : 0 < c * c := mul_pos hc hc
  unfold LeavesBall
  simp only [sub_centre, smul_normSq]
  have e1 : ∀ x, c * R * (c * R) < c * c * x ↔ R * R < x := fun x => by
    rw [show c * R * (c * R) = c * c * (R * R) by ring, mul_lt_mul_iff_right₀ hcc]
  have e2 : ∀ x, c * c * x ≤ c * R * (c * R) ↔ x ≤ R * R := fun x => by
    rw [show c * R * (c * R) = c * c * (R * R) by ring, mul_le_mul_iff_right₀ hcc]
  simp only [e1, e2]

/-! ## C134 -/

/-- **C134, refuted (a).**  Light that leaves a sphere at an angle and is refracted is counted as reflected if it leaves through the far
half and as transmitted if it leaves through the near half, whatever its direction, as soon as the unit of length is small enough: the
rotation in `exit_kz` adds a multiple of the radius to the direction. -/
theorem C134_exit_side_refuted {ns nm R : ℝ} (hs : 0 < ns) (hn : 0 < nm) (pos : Fin (nev + 1) → Fin nt → V3)
    (dir : Fin nev → Fin nt → V3) (j : Fin nt) (e : Fin nev) (q : V3)
    (hm : IsFirst nev (OutsideAfter (2 * R) pos j) (e.val + 1))
    (hx : SphereExit R (V3.sub (pos e.castSucc j) ⟨0, 0, R⟩) (V3.sub (pos e.succ j) ⟨0, 0, R⟩) (dir e j) q)
    (hne : ns ≠ nm) (hob : V3.cross (V3.smul (1 / R) q) (dir e j) ≠ V3.zero)
    (htir : ns * (V3.cross (V3.smul (1 / R) q) (dir e j)).norm ≤ nm) :
    ∃ c0 > 0, ∀ c ≥ c0,
      let X := sphereTables ns nm (2 * (c * R)) (fun r j => V3.smul c (pos r j)) dir
      let I := findEventIndices X.neg X.pos X.tir
      (0 < q.z → I.1 j = e.val + 1 ∧ I.2.1 j = 0) ∧ (q.z < 0 → I.1 j = 0 ∧ I.2.1 j = e.val + 1) := by
  obtain ⟨hcos, hk⟩ := exitKz_in hx hs hn htir
  set α := Real.arcsin (ns / nm * Real.sin (Real.arccos (V3.dot (V3.smul (1 / R) q) (dir e j)))) -
    Real.arccos (V3.dot (V3.smul (1 / R) q) (dir e j))
  set u := V3.cross (dir e j) (V3.smul (1 / R) q)
  set B := Real.cos α * (dir e j).z + Real.sin α * (V3.cross u (dir e j)).z + V3.dot u (dir e j) * (1 - Real.cos α) * u.z
  have hA : 0 < (V3.dot (V3.smul (1 / R) q) (dir e j)) ^ 2 * (1 - Real.cos α) := by
    have := hcos hne hob
    have := hx.dot_pos
    exact mul_pos (by positivity) (by linarith)
  set A := (V3.dot (V3.smul (1 / R) q) (dir e j)) ^ 2 * (1 - Real.cos α)
  refine ⟨|B| / (|q.z| * A) + 1, by positivity, fun c hc => ?_⟩
  have hc0 : 0 < c := lt_of_lt_of_le (by positivity) hc
  have hm' : IsFirst nev (OutsideAfter (2 * (c * R)) (fun r j => V3.smul c (pos r j)) j) (e.val + 1) := by
    rw [firstOutside_iff] at hm ⊢
    exact (leaves_scale hc0 _ e).2 hm
  have h := C84_sphere_first_exit ns nm (2 * (c * R)) (fun r j => V3.smul c (pos r j)) dir j e hm'
  have h2 : 2 * (c * R) / 2 = c * R := by ring
  simp only [h2, sub_centre, hk c hc0] at h
  intro X I
  have hlarge : q.z ≠ 0 → |B| < c * (|q.z| * A) := by
    intro hz
    have hq : 0 < |q.z| * A := mul_pos (abs_pos.mpr hz) hA
    have : |B| / (|q.z| * A) < c := by linarith
    rwa [div_lt_iff₀ hq] at this
  constructor
  · intro hz
    have h3 := hlarge hz.ne'
    rw [abs_of_pos hz] at h3
    have := h.1 (by rw [fin_lt]; linarith [le_abs_self B])
    exact ⟨this.1, this.2.1⟩
  · intro hz
    have h3 := hlarge hz.ne
    rw [abs_of_neg hz] at h3
    have := h.2.1 (by rw [fin_lt]; nlinarith [neg_abs_le B])
    exact ⟨this.1, this.2.1⟩

private theorem fresnelR_lt_one {n1 n2 a b : ℝ} (h1 : 0 < n1) (h2 : 0 < n2) (ha : 0 < Real.cos a) (hb : 0 < Real.cos b) :
    fresnelR n1 n2 a b < 1 := by
  have key : ∀ x y : ℝ, 0 < x → 0 < y → ((x - y) / (x + y)) ^ 2 < 1 := by
    intro x y hx hy
    rw [div_pow, div_lt_one (by positivity)]
    nlinarith [mul_pos hx hy]
  unfold fresnelR
  have := key (n1 * Real.cos b) (n2 * Real.cos a) (by positivity) (by positivity)
  have := key (n1 * Real.cos a) (n2 * Real.cos b) (by positivity) (by positivity)
  linarith

private theorem pass_pos {n1 n2 θ : ℝ} (h1 : 0 < n1) (h2 : 0 < n2) (h0 : 0 ≤ θ) (hθ : θ < Real.pi / 2) (hc : n1 * Real.sin θ < n2) :
    0 < platePass n1 none n2 θ := by
  have hs0 : 0 ≤ Real.sin θ := Real.sin_nonneg_of_nonneg_of_le_pi h0 (by linarith [Real.pi_pos])
  have hs1 : Real.sin θ < 1 := by
    rw [← Real.sin_pi_div_two]
    exact Real.sin_lt_sin_of_lt_of_le_pi_div_two (by linarith [Real.pi_pos]) le_rfl hθ
  have hcos : 0 < Real.cos θ := Real.cos_pos_of_mem_Ioo ⟨by linarith [Real.pi_pos], hθ⟩
  have hself : Real.arcsin (n1 * Real.sin θ / n1) = θ := by
    rw [mul_div_cancel_left₀ _ h1.ne', Real.arcsin_sin (by linarith [Real.pi_pos]) hθ.le]
  have hR1 : fresnelR n1 n1 θ θ = 0 := by
    unfold fresnelR
    simp
  unfold platePass
  simp only [Option.getD_none, hself, hR1]
  rw [if_neg]
  · have hlt : fresnelR n1 n2 θ (Real.arcsin (n1 * Real.sin θ / n2)) < 1 := by
      refine fresnelR_lt_one h1 h2 hcos ?_
      rw [Real.cos_arcsin]
      refine Real.sqrt_pos.mpr ?_
      have h3 : n1 * Real.sin θ / n2 < 1 := by rw [div_lt_one h2]; exact hc
      have h4 : 0 ≤ n1 * Real.sin θ / n2 := by positivity
      nlinarith
    have : (0 : ℝ) < 1 / 10 ^ 9 := by positivity
    rw [zero_mul, sub_zero, one_mul]
    exact div_pos (by linarith) (by linarith)
  · push Not
    exact ⟨by nlinarith, hc, hθ.ne⟩


/-- a photon that goes straight through a sphere of diameter 2 and index 4/3 in air, unscattered, and leaves at the far pole -/
def straightTrajs : SphTrajs 1 where
  position := fun i _ => ⟨-24 / 25 + i * (27 / 25), 0, 18 / 25 + i * (36 / 25)⟩
  direction := fun _ _ => ⟨3 / 5, 0, 4 / 5⟩
  weight := fun _ _ => fin 1

/-- the optical constants of that sphere -/
def straightOptics : Optics :=
  { n_medium := 1, n_sample := 4 / 3, n_tir := 4 / 3, n_front := none, n_back := none, detection_angle := Real.pi / 2 }

private theorem straight_leaves : LeavesBall 1 ⟨0, 0, 1⟩ (fun r : Fin 2 => straightTrajs.position r 0) 0 :=
  ⟨by norm_num [straightTrajs, V3.sub, V3.normSq, V3.dot], fun e' he' => absurd he' (Fin.not_lt_zero e')⟩

private theorem straight_exit : SphereExit 1 (V3.sub (straightTrajs.position 0 0) ⟨0, 0, 1⟩) (V3.sub (straightTrajs.position 1 0) ⟨0, 0, 1⟩)
    ⟨3 / 5, 0, 4 / 5⟩ ⟨0, 0, 1⟩ where
  radius := one_pos
  inside := by norm_num [straightTrajs, V3.sub, V3.normSq, V3.dot]
  outside := by norm_num [straightTrajs, V3.sub, V3.normSq, V3.dot]
  bounded := by norm_num [straightTrajs, V3.sub, Bounded, abs_le]
  unit := by norm_num [V3.normSq, V3.dot]
  step := ⟨9 / 5, by norm_num, by ext <;> norm_num [straightTrajs, V3.sub, V3.smul]⟩
  crossing := ⟨8 / 5, by norm_num, by ext <;> norm_num [straightTrajs, V3.sub, V3.add, V3.smul]⟩
  surface := by norm_num [V3.normSq, V3.dot]

private theorem bundle_scale {R : ℝ} {t : SphTrajs nt} {w : Fin nev → Fin nt → ℝ} {q : Fin nt → V3} (H : BallBundle R t nev w q) {c : ℝ}
    (hc : 0 < c) : BallBundle (c * R) (sphTrajsIn c t) nev w (fun j => V3.smul c (q j)) where
  start := fun j => by
    change (V3.sub (V3.smul c _) _).normSq = _
    rw [sub_centre, smul_normSq, H.start]
    ring
  unit := H.unit
  inward := fun j => by
    change 0 ≤ V3.dot (V3.smul (-1 / (c * R)) (V3.sub (V3.smul c _) _)) _
    rw [sub_centre]
    have := H.inward j
    have e : V3.smul (-1 / (c * R)) (V3.smul c (V3.sub (t.position 0 j) ⟨0, 0, R⟩)) = V3.smul (-1 / R) (V3.sub (t.position 0 j) ⟨0, 0, R⟩) := by
      have e : ∀ x : ℝ, -1 / (c * R) * (c * x) = -1 / R * x := by
        intro x
        rw [div_mul_eq_mul_div, mul_left_comm, mul_div_mul_left _ _ hc.ne', div_mul_eq_mul_div]
      ext <;> simp only [V3.smul, e]
    rw [e]
    exact this
  leave := fun j e hl => by
    change SphereExit _ (V3.sub (V3.smul c _) _) (V3.sub (V3.smul c _) _) _ _
    rw [sub_centre, sub_centre]
    exact exit_scale (H.leave j e ((leaves_scale hc _ e).1 hl)) hc
  weight := H.weight

private theorem straight_bundle : BallBundle 1 straightTrajs 1 (fun _ _ => 1) (fun _ => ⟨0, 0, 1⟩) where
  start := fun j => by norm_num [straightTrajs, V3.sub, V3.normSq, V3.dot]
  unit := fun j => by norm_num [straightTrajs, V3.normSq, V3.dot]
  inward := fun j => by norm_num [straightTrajs, V3.sub, V3.smul, V3.dot]
  leave := by
    intro j e _
    have he : e = 0 := Subsingleton.elim _ _
    have hj : j = 0 := Subsingleton.elim _ _
    subst he hj
    exact straight_exit
  weight := fun e j => rfl

private theorem straight_kz {c : ℝ} (hc : 0 < c) :
    ∀ j : Fin 1, ExitKzIs (c * 1) (4 / 3) 1 (fun r : Fin 2 => (sphTrajsIn c straightTrajs).position r j)
      (fun e : Fin 1 => (sphTrajsIn c straightTrajs).direction e j) (fun _ => some (543 / 625 - c * (16 / 625))) := by
  intro j e _
  have he : e = 0 := Subsingleton.elim _ _
  have hj : j = 0 := Subsingleton.elim _ _
  subst he hj
  have hnn : V3.smul (1 / 1) (⟨0, 0, 1⟩ : V3) = ⟨0, 0, 1⟩ := by ext <;> norm_num [V3.smul]
  have hsin : Real.sin (Real.arccos (4 / 5)) = 3 / 5 := by
    rw [Real.sin_arccos, show (1 - (4 / 5 : ℝ) ^ 2) = (3 / 5) * (3 / 5) by norm_num, Real.sqrt_mul_self (by norm_num)]
  have hcr : (V3.cross (⟨0, 0, 1⟩ : V3) ⟨3 / 5, 0, 4 / 5⟩).norm = 3 / 5 := by
    refine norm_eq_of_normSq (by norm_num) ?_
    norm_num [V3.normSq, V3.dot, V3.cross]
  have h := (exitKz_in straight_exit (n1 := 4 / 3) (n2 := 1) (by norm_num) one_pos (by rw [hnn, hcr]; norm_num)).2 c hc
  simp only [hnn] at h
  have hdot : V3.dot (⟨0, 0, 1⟩ : V3) ⟨3 / 5, 0, 4 / 5⟩ = 4 / 5 := by norm_num [V3.dot]
  rw [hdot, hsin, show (4 / 3 / 1 * (3 / 5) : ℝ) = 4 / 5 by norm_num] at h
  have hcos : Real.cos (Real.arcsin (4 / 5) - Real.arccos (4 / 5)) = 24 / 25 := by
    rw [Real.cos_sub, Real.cos_arcsin, Real.cos_arccos (by norm_num) (by norm_num), Real.sin_arcsin (by norm_num) (by norm_num), hsin,
      show (1 - (4 / 5 : ℝ) ^ 2) = (3 / 5) * (3 / 5) by norm_num, Real.sqrt_mul_self (by norm_num)]
    norm_num
  have hsn : Real.sin (Real.arcsin (4 / 5) - Real.arccos (4 / 5)) = 7 / 25 := by
    rw [Real.sin_sub, Real.cos_arcsin, Real.cos_arccos (by norm_num) (by norm_num), Real.sin_arcsin (by norm_num) (by norm_num), hsin,
      show (1 - (4 / 5 : ℝ) ^ 2) = (3 / 5) * (3 / 5) by norm_num, Real.sqrt_mul_self (by norm_num)]
    norm_num
  rw [hcos, hsn] at h
  change exitKz (ofV3 (V3.sub (V3.smul c _) _)) (ofV3 (V3.sub (V3.smul c _) _)) _ _ _ _ = _
  rw [sub_centre, sub_centre]
  refine Eq.trans h ?_
  dsimp only
  rw [fin_inj]
  norm_num [V3.cross, V3.dot]

private theorem refl_one_transmitted {p : Fin 1 → Photon} {a b : ℝ} (h1 : (p 0).enter = a) (h2 : (p 0).outR = 0) (h3 : (p 0).outT = a)
    (h4 : (p 0).trapped = 0) (h5 : (p 0).escT = b) (h6 : (p 0).seenInc) : Photon.reflSphere p 0 = 1 - a + a * (1 - b) / 2 := by
  have hshare : Photon.shareR p = 1 := by
    simp only [Photon.shareR, Photon.escapedR, Finset.univ_unique, Finset.sum_singleton, Fin.default_eq_zero, h2, zero_mul, ite_self]
    exact div_self (by positivity)
  simp only [Photon.reflSphere, Photon.unknown, hshare, h1, h2, h3, h4, h5, if_pos h6, zero_mul, ite_self]
  norm_num

private theorem refl_one_reflected {p : Fin 1 → Photon} {a b : ℝ} (h1 : (p 0).enter = a) (h2 : (p 0).outR = a) (h3 : (p 0).outT = 0)
    (h4 : (p 0).trapped = 0) (h5 : (p 0).escR = b) (h6 : (p 0).seenInc) (h7 : (p 0).seenR) :
    Photon.reflSphere p 0 = a * b + (1 - a) + a * (1 - b) / 2 := by
  have hshare : Photon.shareR p = 1 := by
    simp only [Photon.shareR, Photon.escapedR, Finset.univ_unique, Finset.sum_singleton, Fin.default_eq_zero, if_pos h7]
    exact div_self (ne_of_gt (lt_of_lt_of_le (by positivity) (le_max_right _ _)))
  simp only [Photon.reflSphere, Photon.unknown, hshare, h1, h2, h3, h4, h5, if_pos h6, if_pos h7, zero_mul]
  norm_num

/-- **C134, refuted (b).**  The reflectance of a sphere depends on the unit of length: a photon that goes straight through a sphere of
index 4/3 contributes more to the reflectance when all lengths are expressed by numbers 50 times as large. -/
theorem C134_reflectance_refuted (m : Medium num) (draws : ℕ → Draws 1 num) (max_stuck : ℝ) (on : Optics) (maxDepth : ℕ) :
    ∃ rt rt' r r', calcSphere (2 * 1) m draws false max_stuck on straightOptics maxDepth 0 1 straightTrajs = .ok rt ∧
      calcSphere (2 * (50 * 1)) m draws false max_stuck on straightOptics maxDepth 0 1 (sphTrajsIn 50 straightTrajs) = .ok rt' ∧
      rt.R = fin r ∧ rt'.R = fin r' ∧ r < r' := by
  have ho : OpticsOK straightOptics := ⟨by norm_num [straightOptics], by norm_num [straightOptics], fun _ h => (nomatch h), fun _ h => (nomatch h)⟩
  have hns : 0 < straightOptics.n_sample := by norm_num [straightOptics]
  have h1 := straight_kz one_pos
  have ht1 : sphTrajsIn 1 straightTrajs = straightTrajs := by
    simp only [sphTrajsIn, V3.smul, one_mul]
  rw [ht1, one_mul, one_mul, show (543 / 625 - 16 / 625 : ℝ) = 527 / 625 by norm_num] at h1
  have h50 := straight_kz (c := 50) (by norm_num)
  rw [show (543 / 625 - 50 * (16 / 625) : ℝ) = -257 / 625 by norm_num] at h50
  obtain ⟨rt, hrt, -, -, hR, -⟩ := C109_sphere_estimator (nev := 0) one_pos one_pos on ho hns m draws max_stuck maxDepth straight_bundle
    (kz := fun _ _ => some (527 / 625)) h1 (fate := fun _ => .transmitted 0) (fun j => by
      have hj : j = 0 := Subsingleton.elim _ _
      subst hj
      exact ⟨straight_leaves, _, rfl, by norm_num⟩)
  obtain ⟨rt', hrt', -, -, hR', -⟩ := C109_sphere_estimator (nev := 0) one_pos (by norm_num : (0 : ℝ) < 50 * 1) on ho hns m draws max_stuck
    maxDepth (bundle_scale straight_bundle (c := 50) (by norm_num)) (kz := fun _ _ => some (-257 / 625)) h50
    (fate := fun _ => .reflected 0) (fun j => by
      have hj : j = 0 := Subsingleton.elim _ _
      subst hj
      exact ⟨(leaves_scale (by norm_num) _ 0).2 straight_leaves, _, rfl, by norm_num⟩)
  refine ⟨rt, rt', _, _, hrt, hrt', hR, hR', ?_⟩
  simp only [Finset.univ_unique, Finset.sum_singleton, Fin.default_eq_zero]
  have hin : V3.dot (V3.smul (-1 / 1) (V3.sub (straightTrajs.position 0 0) ⟨0, 0, 1⟩)) (straightTrajs.direction 0 0) = 4 / 5 := by
    norm_num [straightTrajs, V3.sub, V3.smul, V3.dot]
  have hin' : V3.dot (V3.smul (-1 / (50 * 1)) (V3.sub ((sphTrajsIn 50 straightTrajs).position 0 0) ⟨0, 0, 50 * 1⟩))
      ((sphTrajsIn 50 straightTrajs).direction 0 0) = 4 / 5 := by
    norm_num [sphTrajsIn, straightTrajs, V3.sub, V3.smul, V3.dot]
  have hout : V3.dot (V3.smul (1 / 1) (⟨0, 0, 1⟩ : V3)) (straightTrajs.direction 0 0) = 4 / 5 := by
    norm_num [straightTrajs, V3.smul, V3.dot]
  have hout' : V3.dot (V3.smul (1 / (50 * 1)) (V3.smul 50 (⟨0, 0, 1⟩ : V3))) ((sphTrajsIn 50 straightTrajs).direction 0 0) = 4 / 5 := by
    norm_num [sphTrajsIn, straightTrajs, V3.smul, V3.dot]
  have hsin : Real.sin (Real.arccos (4 / 5)) = 3 / 5 := by
    rw [Real.sin_arccos, show (1 - (4 / 5 : ℝ) ^ 2) = (3 / 5) * (3 / 5) by norm_num, Real.sqrt_mul_self (by norm_num)]
  have hlt : Real.arccos (4 / 5) < Real.pi / 2 := Real.arccos_lt_pi_div_two.2 (by norm_num)
  have ha : 0 < platePass 1 none (4 / 3) (Real.arccos (4 / 5)) :=
    pass_pos one_pos (by norm_num) (Real.arccos_nonneg _) hlt (by rw [hsin]; norm_num)
  have hb : 0 < platePass (4 / 3) none 1 (Real.arccos (4 / 5)) :=
    pass_pos (by norm_num) one_pos (Real.arccos_nonneg _) hlt (by rw [hsin]; norm_num)
  rw [refl_one_transmitted (a := platePass 1 none (4 / 3) (Real.arccos (4 / 5))) (b := platePass (4 / 3) none 1 (Real.arccos (4 / 5))),
    refl_one_reflected (a := platePass 1 none (4 / 3) (Real.arccos (4 / 5))) (b := platePass (4 / 3) none 1 (Real.arccos (4 / 5)))]
  · linarith [mul_pos ha hb]
  · simp only [ballPhotons, hin']; rfl
  · simp only [ballPhotons, Fate.reflEvent, valueAt, hin']; exact mul_one _
  · simp only [ballPhotons, Fate.transEvent, valueAt, mul_zero]
  · simp only [ballPhotons, Fate.lastEvent, valueAt, mul_zero]
  · simp only [ballPhotons, Fate.reflEvent, valueAt]
    refine Eq.trans (congrArg (fun x => platePass _ _ _ (Real.arccos x)) hout') ?_
    rfl
  · simp only [ballPhotons, hin']; exact hlt.le
  · simp only [ballPhotons, Fate.reflEvent, valueAt]
    refine (congrArg (fun x => SeenWithin _ _ _ (Real.arccos x)) hout').mpr ?_
    refine ⟨Real.arcsin (4 / 5), ⟨Real.neg_pi_div_two_le_arcsin _, Real.arcsin_le_pi_div_two _⟩, ?_, Real.arcsin_le_pi_div_two _⟩
    change 4 / 3 * Real.sin _ = 1 * Real.sin _
    rw [hsin, Real.sin_arcsin (by norm_num) (by norm_num)]
    norm_num
  · simp only [ballPhotons, hin]; rfl
  · simp only [ballPhotons, Fate.reflEvent, valueAt, mul_zero]
  · simp only [ballPhotons, Fate.transEvent, valueAt, hin]; exact mul_one _
  · simp only [ballPhotons, Fate.lastEvent, valueAt, mul_zero]
  · simp only [ballPhotons, Fate.transEvent, valueAt]
    refine Eq.trans (congrArg (fun x => platePass _ _ _ (Real.arccos x)) hout) ?_
    rfl
  · simp only [ballPhotons, hin]; exact hlt.le

private theorem fate_scale {c R : ℝ} (hc : 0 < c) (pos : Fin (nev + 1) → V3) (kz : Fin nev → Option ℝ) (f : Fate nev)
    (h : IsBallFate R ⟨0, 0, R⟩ pos kz f) : IsBallFate (c * R) ⟨0, 0, c * R⟩ (fun r => V3.smul c (pos r)) kz f := by
  cases f with
  | reflected e => exact ⟨(leaves_scale hc pos e).2 h.1, h.2⟩
  | transmitted e => exact ⟨(leaves_scale hc pos e).2 h.1, h.2⟩
  | trapped => exact fun e he => h e ((leaves_scale hc pos e).1 he)

private theorem photons_scale {c R : ℝ} (hc : 0 < c) (o : FilmOptics) (p0 k0 : Fin nt → V3) (k : Fin nev → Fin nt → V3)
    (w : Fin nev → Fin nt → ℝ) (q : Fin nt → V3) (eR eT eS : Fin nt → Option (Fin nev)) :
    ballPhotons o (c * R) (fun j => V3.smul c (p0 j)) k0 k w (fun j => V3.smul c (q j)) eR eT eS = ballPhotons o R p0 k0 k w q eR eT eS := by
  have e : ∀ v : V3, V3.smul (-1 / (c * R)) (V3.smul c v) = V3.smul (-1 / R) v := by
    intro v
    have e : ∀ x : ℝ, -1 / (c * R) * (c * x) = -1 / R * x := by
      intro x
      rw [div_mul_eq_mul_div, mul_left_comm, mul_div_mul_left _ _ hc.ne', div_mul_eq_mul_div]
    ext <;> simp only [V3.smul, e]
  funext j
  simp only [ballPhotons, e, normal_scale hc]

/-- **C134, what holds.**  When the surface of the sphere does not refract, the reflectance, the transmittance and the contributions of
the single trajectories do not depend on the unit in which positions and diameter are given. -/
theorem C134_matched_sphere_partial {nev nt : ℕ} (hnt : 0 < nt) {R : ℝ} (hR : 0 < R) (on : Optics) {o : Optics} (ho : OpticsOK o)
    (hns : 0 < o.n_sample) (hmatch : o.n_tir = o.n_medium) (m : Medium num) (draws : ℕ → Draws nt num) (max_stuck : ℝ) (maxDepth : ℕ)
    {t : SphTrajs nt} {w : Fin (nev + 1) → Fin nt → ℝ} {q : Fin nt → V3} (H : BallBundle R t (nev + 1) w q) {c : ℝ} (hc : 0 < c) :
    ∃ rt rt', calcSphere (2 * R) m draws false max_stuck on o maxDepth 0 (nev + 1) t = .ok rt ∧
      calcSphere (2 * (c * R)) m draws false max_stuck on o maxDepth 0 (nev + 1) (sphTrajsIn c t) = .ok rt' ∧
      rt'.R = rt.R ∧ rt'.T = rt.T ∧ rt'.reflPer = rt.reflPer ∧ rt'.transPer = rt.transPer := by
  choose fate hfate using fun j => (C109_one_fate (R := R) ⟨0, 0, R⟩ (fun r : Fin (nev + 2) => t.position r j)
    (fun e : Fin (nev + 1) => some (t.direction e j).z)).exists
  obtain ⟨rt, hrt, h1, h2, h3, h4⟩ := C109_matched_sphere hnt hR on ho hns hmatch m draws max_stuck maxDepth H hfate
  obtain ⟨rt', hrt', h1', h2', h3', h4'⟩ := C109_matched_sphere hnt (mul_pos hc hR) on ho hns hmatch m draws max_stuck maxDepth
    (bundle_scale H hc) (fate := fate) (fun j => fate_scale hc _ _ _ (hfate j))
  have hp := photons_scale hc o.medium (R := R) (fun j => V3.sub (t.position 0 j) ⟨0, 0, R⟩) (t.direction 0)
    (fun (e : Fin (nev + 1)) j => t.direction e j) w q (fun j => (fate j).reflEvent) (fun j => (fate j).transEvent) (fun j => (fate j).lastEvent)
  have hq : (fun j => V3.sub ((sphTrajsIn c t).position 0 j) ⟨0, 0, c * R⟩) = fun j => V3.smul c (V3.sub (t.position 0 j) ⟨0, 0, R⟩) :=
    funext fun j => sub_centre c R _
  change ∀ j, rt'.reflPer j = fin (Photon.reflSphere (ballPhotons o.medium (c * R)
    (fun j => V3.sub ((sphTrajsIn c t).position 0 j) ⟨0, 0, c * R⟩) _ _ w (fun j => V3.smul c (q j)) _ _ _) j) at h1'
  change ∀ j, rt'.transPer j = fin (Photon.transSphere (ballPhotons o.medium (c * R)
    (fun j => V3.sub ((sphTrajsIn c t).position 0 j) ⟨0, 0, c * R⟩) _ _ w (fun j => V3.smul c (q j)) _ _ _) j) at h2'
  change rt'.R = fin (∑ j, Photon.reflSphere (ballPhotons o.medium (c * R)
    (fun j => V3.sub ((sphTrajsIn c t).position 0 j) ⟨0, 0, c * R⟩) _ _ w (fun j => V3.smul c (q j)) _ _ _) j) at h3'
  change rt'.T = fin (∑ j, Photon.transSphere (ballPhotons o.medium (c * R)
    (fun j => V3.sub ((sphTrajsIn c t).position 0 j) ⟨0, 0, c * R⟩) _ _ w (fun j => V3.smul c (q j)) _ _ _) j) at h4'
  rw [hq] at h1' h2' h3' h4'
  refine ⟨rt, rt', hrt, hrt', ?_, ?_, funext fun j => ?_, funext fun j => ?_⟩
  · rw [h3, h3']; exact congrArg (fun p => fin (∑ j, Photon.reflSphere p j)) hp
  · rw [h4, h4']; exact congrArg (fun p => fin (∑ j, Photon.transSphere p j)) hp
  · rw [h1, h1']; exact congrArg (fun p => fin (Photon.reflSphere p j)) hp
  · rw [h2, h2']; exact congrArg (fun p => fin (Photon.transSphere p j)) hp

/-- Non-vacuity of C134: the photon through the sphere of index 4/3 leaves through the far half, obliquely, refracted, below the critical
angle; in a medium of the same index it satisfies the hypotheses of the positive part. -/
example : IsFirst 1 (OutsideAfter (2 * 1) (fun (r : Fin 2) (j : Fin 1) => straightTrajs.position r j) 0) ((0 : Fin 1).val + 1) ∧
    V3.cross (V3.smul (1 / 1) (⟨0, 0, 1⟩ : V3)) ⟨3 / 5, 0, 4 / 5⟩ ≠ V3.zero ∧
    (4 / 3 : ℝ) * (V3.cross (V3.smul (1 / 1) (⟨0, 0, 1⟩ : V3)) ⟨3 / 5, 0, 4 / 5⟩).norm ≤ 1 := by
  refine ⟨?_, ?_, ?_⟩
  · rw [firstOutside_iff]
    exact straight_leaves
  · intro h
    have := congrArg V3.y h
    norm_num [V3.cross, V3.smul, V3.zero] at this
  · have hcr : (V3.cross (V3.smul (1 / 1) (⟨0, 0, 1⟩ : V3)) ⟨3 / 5, 0, 4 / 5⟩).norm = 3 / 5 := by
      refine norm_eq_of_normSq (by norm_num) ?_
      norm_num [V3.normSq, V3.dot, V3.cross, V3.smul]
    rw [hcr]
    norm_num

example : let o : Optics := { straightOptics with n_medium := 4 / 3 }
    OpticsOK o ∧ 0 < o.n_sample ∧ o.n_tir = o.n_medium ∧ BallBundle 1 straightTrajs (0 + 1) (fun _ _ => 1) (fun _ => ⟨0, 0, 1⟩) :=
  ⟨⟨by norm_num [straightOptics], by norm_num [straightOptics], fun _ h => (nomatch h), fun _ h => (nomatch h)⟩,
    by norm_num [straightOptics], rfl, straight_bundle⟩

end
end Verif.Props
