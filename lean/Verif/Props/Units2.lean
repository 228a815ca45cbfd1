import Verif.Props.Reflection
import Verif.Props.SingleScat3
import Verif.Lemmas.UnitScale

/-!
# C133: what the two models of the sample report does not depend on the unit of length
-/

namespace Verif.Props
open Verif.Spec Verif.Traj Verif.Reflection XF
open Verif.SingleScat (ReflIn ReflOut vfArray)
open Verif (XF PyErr)

open UnitScale

/-! ## Spec -/

/-- the same sample with every length expressed in a unit `1/c` as long -/
@[reducible] def inUnit (c : ℝ) (a : Reflection.Args) : Reflection.Args :=
  { a with wavelen := c * a.wavelen, radius := a.radius.map (c * ·), radius2 := a.radius2.map (·.map (c * ·))
           thickness := a.thickness.map (c * ·) }

/-- the same sample for the Monte Carlo model -/
@[reducible] def inUnitMC (c : ℝ) (mc : CalcScat.Args) : CalcScat.Args :=
  { mc with wavelen := c * mc.wavelen, radius := mc.radius.map (c * ·), radius2 := mc.radius2.map (·.map (c * ·)) }

/-- the call of `differential_cross_section` in that unit -/
noncomputable def inUnitCall (c : ℝ) (d : DcsCall) : DcsCall :=
  { d with diameters := (d.diameters.1.map (c * ·), d.diameters.2.map (c * ·)), wavelen := c * d.wavelen, k := d.k / c
           distance := d.distance.map (c * ·) }

/-- What is assumed of the parts that are not modelled here: the differential cross sections are dimensionless, Mie's absorption
cross section and pymie's integrals at a distance are areas. -/
structure UnitFree (E : Ext) : Prop where
  dcs : ∀ (c : ℝ) (d : DcsCall), 0 < c → E.dcs (inUnitCall c d) = E.dcs d
  cabs : ∀ (c : ℝ) (m x : List ℂ) (w : ℂ), 0 < c → E.cabs m x (c * w) = c ^ 2 * E.cabs m x w
  integ : ∀ (c : ℝ) I1 I2 d num ang k p0 p1, 0 < c →
    E.integ I1 I2 (c * d) num ang (k / c) p0 p1 =
      (fin (c ^ 2) * (E.integ I1 I2 d num ang k p0 p1).1, fin (c ^ 2) * (E.integ I1 I2 d num ang k p0 p1).2.1,
        fin (c ^ 2) * (E.integ I1 I2 d num ang k p0 p1).2.2)

/-! ## The parts -/

private theorem outer_mul {c : ℝ} (hc : 0 < c) (l : List ℝ) : CalcScat.outer (l.map (c * ·)) = c * CalcScat.outer l := by
  unfold CalcScat.outer
  induction l with
  | nil => simp
  | cons x l ih => simp only [List.map_cons, List.foldr_cons, ih, mul_max_of_nonneg _ _ hc.le]

private theorem map_two (c : ℝ) (l : List ℝ) : (l.map (c * ·)).map (2 * ·) = (l.map (2 * ·)).map (c * ·) := by
  rw [List.map_map, List.map_map]
  exact List.map_congr_left fun r _ => by simp only [Function.comp]; ring

private theorem size_scale {c : ℝ} (hc : 0 < c) (w : ℝ) (n : ℂ) (l : List ℝ) :
    CalcScat.sizeParameter (c * w) n (l.map (c * ·)) = CalcScat.sizeParameter w n l := by
  unfold CalcScat.sizeParameter
  rw [List.map_map]
  refine List.map_congr_left fun r _ => ?_
  simp only [Function.comp]
  have hc' : (c : ℂ) ≠ 0 := by exact_mod_cast hc.ne'
  push_cast
  rw [mul_comm (c : ℂ) (w : ℂ), ← div_div, div_mul_eq_mul_div, mul_comm (c : ℂ) (r : ℂ), ← mul_assoc, mul_div_assoc,
    div_self hc', mul_one]

private theorem getD_scale (c : ℝ) (o : Option (List ℝ)) (l : List ℝ) :
    (o.map (·.map (c * ·))).getD (l.map (c * ·)) = (o.getD l).map (c * ·) := by
  cases o <;> rfl

private theorem radius2_scale (c : ℝ) (a : Reflection.Args) : Reflection.radius2Of (inUnit c a) = (Reflection.radius2Of a).map (c * ·) :=
  getD_scale c a.radius2 a.radius

private theorem rho_scale {c : ℝ} (hc : 0 < c) (a : Reflection.Args) : rhoOf (inUnit c a) = rhoOf a / c ^ 3 := by
  unfold rhoOf
  rw [radius2_scale]
  simp only [outer_mul hc]
  have hc3 : c ^ 3 ≠ 0 := by positivity
  unfold SingleScat.rho
  have e0 : ∀ r, SingleScat.numberDensity a.volume_fraction (c * r) = SingleScat.numberDensity a.volume_fraction r / c ^ 3 := by
    intro r
    unfold SingleScat.numberDensity
    rw [mul_pow, div_div]
    congr 1
    ring
  split
  · exact e0 _
  · split
    · exact e0 _
    · rename_i ca cb _
      have e : ∀ r r' x y : ℝ, 1 / ((c * r) ^ 3 + (c * r') ^ 3 * x / y) = 1 / (r ^ 3 + r' ^ 3 * x / y) / c ^ 3 := by
        intro r r' x y
        rw [show (c * r) ^ 3 + (c * r') ^ 3 * x / y = (r ^ 3 + r' ^ 3 * x / y) * c ^ 3 by ring, ← div_div]
      rw [e, e]
      ring

private theorem vf_scale {c : ℝ} (hc : 0 < c) (phi : ℝ) (l : List ℝ) : vfArray phi (l.map (c * ·)) = vfArray phi l := by
  unfold vfArray
  have e0 : (0 :: l.map (c * ·)) = (0 :: l).map (c * ·) := by simp
  have e1 : (0 :: l.map (c * ·)).getLast (by simp) = c * (0 :: l).getLast (by simp) := by
    simp only [e0, List.getLast_map]
  rw [e1, e0, List.zipWith_map]
  congr 1
  funext x y
  have hc3 : c ^ 3 ≠ 0 := by positivity
  rw [mul_pow, mul_pow, mul_pow, ← mul_sub, mul_div_mul_left _ _ hc3]

private theorem sample_scale (E : Ext) {c : ℝ} (hc : 0 < c) (a : Reflection.Args) : sampleOf E (inUnit c a) = sampleOf E a := by
  unfold sampleOf
  simp only [vf_scale hc, size_scale hc]

private theorem call_scale {c : ℝ} (hc : 0 < c) (a : Reflection.Args) (n : ℂ) (xe : Option (List ℂ)) :
    dcsCall (inUnit c a) n xe = inUnitCall c (dcsCall a n xe) := by
  have hd : Reflection.distanceOf (inUnit c a) = (Reflection.distanceOf a).map (c * ·) := by
    unfold Reflection.distanceOf
    rw [radius2_scale]
    simp only [map_two, outer_mul hc, ← mul_max_of_nonneg _ _ hc.le, mul_div_assoc]
    split <;> rfl
  unfold dcsCall inUnitCall
  rw [hd, radius2_scale]
  simp only [size_scale hc, map_two, DcsCall.mk.injEq, true_and, and_true]
  push_cast
  rw [mul_comm (c : ℂ), div_div]

/-! ## Transparent samples -/

private theorem trapz_mul (s : ℝ) (n : ℕ) (y x : ℕ → ℝ) : SingleScat.trapz n (fun i => s * y i) x = s * SingleScat.trapz n y x := by
  unfold SingleScat.trapz
  rw [Finset.mul_sum]
  exact Finset.sum_congr rfl fun i _ => by ring

private theorem transparent_scale (b b' : ReflIn) {c : ℝ} (hc : 0 < c) (h1 : b'.n_medium = b.n_medium) (h2 : b'.n_sample = b.n_sample)
    (h3 : b'.incident = b.incident) (h4 : b'.theta_min = b.theta_min) (h5 : b'.theta_max = b.theta_max) (h6 : b'.phi_min = b.phi_min)
    (h7 : b'.phi_max = b.phi_max) (h8 : b'.small_angle = b.small_angle) (h9 : b'.num = b.num) (h10 : b'.k = b.k / c)
    (h11 : b'.rho = b.rho / c ^ 3) (h12 : b'.cabs = c ^ 2 * b.cabs) (h13 : b'.dcs = b.dcs) (L : Option ℝ) :
    SingleScat.reflection b' (L.map (c * ·)) =
      (SingleScat.reflection b L).map fun o => { o with transport_length := fin c * o.transport_length } := by
  obtain ⟨n1, n2, i, t1, t2, p1, p2, sm, num, k, rho, cabs, f⟩ := b
  obtain ⟨n1', n2', i', t1', t2', p1', p2', sm', num', k', rho', cabs', f'⟩ := b'
  simp only at h1 h2 h3 h4 h5 h6 h7 h8 h9 h10 h11 h12 h13
  subst h1 h2 h3 h4 h5 h6 h7 h8 h9 h10 h11 h12 h13
  set b : ReflIn := ⟨n1', n2', i', t1', t2', p1', p2', sm', num', k, rho, cabs, f'⟩ with hb
  set b' : ReflIn := ⟨n1', n2', i', t1', t2', p1', p2', sm', num', k / c, rho / c ^ 3, c ^ 2 * cabs, f'⟩ with hb'
  have hk : ∀ x : ℝ, x / |k / c| ^ 2 = c ^ 2 * (x / |k| ^ 2) := by
    intro x
    rw [abs_div, abs_of_pos hc, div_pow, div_div_eq_mul_div]
    ring
  have hi : ∀ (cs g : ℕ → ℝ) ang azi, SingleScat.integrateCS num' cs (fun i => g i / |k / c| ^ 2) ang azi =
      c ^ 2 * SingleScat.integrateCS num' cs (fun i => g i / |k| ^ 2) ang azi := by
    intro cs g ang azi
    unfold SingleScat.integrateCS
    have e : (fun i => cs i * (g i / |k / c| ^ 2) * Real.sin (ang i)) = fun i => c ^ 2 * (cs i * (g i / |k| ^ 2) * Real.sin (ang i)) := by
      funext i
      rw [hk]
      ring
    dsimp only
    rw [e, trapz_mul]
    ring
  have e1 : SingleScat.cscatDetectedPar b' = c ^ 2 * SingleScat.cscatDetectedPar b := hi _ _ _ _
  have e2 : SingleScat.cscatDetectedPerp b' = c ^ 2 * SingleScat.cscatDetectedPerp b := hi _ _ _ _
  have e3 : SingleScat.cscatTotal b' = c ^ 2 * SingleScat.cscatTotal b := by
    have := hi (fun i => (f' (SingleScat.anglesTot b i)).1) (fun _ => 1) (SingleScat.anglesTot b) (2 * Real.pi)
    have h' := hi (fun i => (f' (SingleScat.anglesTot b i)).2) (fun _ => 1) (SingleScat.anglesTot b) (2 * Real.pi)
    change (SingleScat.integrateCS num' (fun i => (f' (SingleScat.anglesTot b i)).1) (fun _ => 1 / |k / c| ^ 2) (SingleScat.anglesTot b) _ +
      SingleScat.integrateCS num' (fun i => (f' (SingleScat.anglesTot b i)).2) (fun _ => 1 / |k / c| ^ 2) (SingleScat.anglesTot b) _) / 2 =
      c ^ 2 * ((SingleScat.integrateCS num' (fun i => (f' (SingleScat.anglesTot b i)).1) (fun _ => 1 / |k| ^ 2) (SingleScat.anglesTot b) _ +
      SingleScat.integrateCS num' (fun i => (f' (SingleScat.anglesTot b i)).2) (fun _ => 1 / |k| ^ 2) (SingleScat.anglesTot b) _) / 2)
    rw [this, h']
    ring
  have e4 : SingleScat.asymmetrySum b' = c ^ 2 * SingleScat.asymmetrySum b := by
    have := hi (fun i => (f' (SingleScat.anglesTot b i)).1) (fun i => Real.cos (SingleScat.anglesTot b i) * 1) (SingleScat.anglesTot b) (2 * Real.pi)
    have h' := hi (fun i => (f' (SingleScat.anglesTot b i)).2) (fun i => Real.cos (SingleScat.anglesTot b i) * 1) (SingleScat.anglesTot b) (2 * Real.pi)
    change SingleScat.integrateCS num' (fun i => (f' (SingleScat.anglesTot b i)).1) (fun i => Real.cos (SingleScat.anglesTot b i) * 1 / |k / c| ^ 2) (SingleScat.anglesTot b) _ +
      SingleScat.integrateCS num' (fun i => (f' (SingleScat.anglesTot b i)).2) (fun i => Real.cos (SingleScat.anglesTot b i) * 1 / |k / c| ^ 2) (SingleScat.anglesTot b) _ =
      c ^ 2 * (SingleScat.integrateCS num' (fun i => (f' (SingleScat.anglesTot b i)).1) (fun i => Real.cos (SingleScat.anglesTot b i) * 1 / |k| ^ 2) (SingleScat.anglesTot b) _ +
      SingleScat.integrateCS num' (fun i => (f' (SingleScat.anglesTot b i)).2) (fun i => Real.cos (SingleScat.anglesTot b i) * 1 / |k| ^ 2) (SingleScat.anglesTot b) _)
    rw [this, h']
    ring
  have hc2 : 0 < c ^ 2 := by positivity
  have hc3 : 0 < 1 / c ^ 3 := by positivity
  have e5 : SingleScat.attenuation b' (L.map (c * ·)) = SingleScat.attenuation b L := by
    cases L with
    | none => rfl
    | some L =>
      simp only [SingleScat.attenuation, Option.map_some, e3]
      change fin (1 - Real.exp (-(rho / c ^ 3) * (c ^ 2 * SingleScat.cscatTotal b + c ^ 2 * cabs) * (c * L))) * _ / fin (_ + c ^ 2 * cabs) = _
      rw [← mul_add, ← fin_mul, ← fin_mul, scale_mul_right hc2, ratio hc2]
      congr 4
      change Real.exp _ = Real.exp (-rho * (SingleScat.cscatTotal b + cabs) * L)
      congr 1
      field_simp
  unfold SingleScat.reflection
  simp only [e1, e2, e3, e4, e5]
  have ang : ∀ i, SingleScat.angles b' i = SingleScat.angles b i := fun _ => rfl
  simp only [ang]
  simp only [hb, hb', bind, Except.bind]
  rcases Fresnel.fresnelTransmission (n := 1) n1' n2' (fun _ => fin i') with e | ⟨tp, ts⟩
  · rfl
  rcases Fresnel.fresnelReflection (n := 1) n1' n2' (fun _ => fin i') with e | ⟨rp, rs⟩
  · rfl
  dsimp only
  rcases Fresnel.fresnelTransmission (n := num') n2' n1' (fun i => fin (Real.pi - SingleScat.angles
    ⟨n1', n2', i', t1', t2', p1', p2', sm', num', k, rho, cabs, f'⟩ i)) with e | _
  · rfl
  dsimp only [Except.map]
  rw [← hb]
  simp only [← fin_mul, scale_add hc2, scale_mul_right hc2, ratio hc2]
  have h3 : fin (rho / c ^ 3) = fin (1 / c ^ 3) * fin rho := by rw [fin_mul]; congr 1; ring
  rw [h3, div_scale_right hc3, div_scale_left (by positivity), div_scale_right hc2, mul_mul _ _ (by positivity) (by positivity)]
  have h4 : 1 / (1 / c ^ 3) * (1 / c ^ 2) = c := by field_simp
  rw [h4]

/-! ## Absorbing samples -/

private theorem surface_scale {c : ℝ} (hc : 0 < c) (a : Reflection.Args) (I I' : ℝ → XF) (hI : ∀ d, I' (c * d) = fin (c ^ 2) * I d) :
    atSurface (inUnit c a) I' = (atSurface a I).map (fin (c ^ 2) * ·) := by
  have hc2 : 0 < c ^ 2 := by positivity
  unfold atSurface
  rw [radius2_scale]
  simp only [map_two, outer_mul hc, ← mul_max_of_nonneg _ _ hc.le, mul_div_assoc, hI]
  split
  · split
    · rfl
    · simp only [Except.map]
      rw [← scale_add hc2, scale_mul_left hc2, scale_mul_left hc2]
  · rfl

private theorem absorbing_scale (E : Ext) (hE : UnitFree E) {c : ℝ} (hc : 0 < c) (a : Reflection.Args) (n : ℂ) (f : ℝ → ℝ × ℝ) :
    absorbing E (inUnit c a) n f =
      (absorbing E a n f).map fun o => { o with transport_length := fin c * o.transport_length } := by
  have hc2 : 0 < c ^ 2 := by positivity
  have hc3 : 0 < 1 / c ^ 3 := by positivity
  have hk : 2 * (Real.pi : ℂ) * n / ((c * a.wavelen : ℝ) : ℂ) = 2 * Real.pi * n / a.wavelen / c := by
    push_cast
    rw [mul_comm (c : ℂ), div_div]
  have h1 : ∀ tp ts d, (detected E (inUnit c a) n f tp ts (c * d)).2.1 = fin (c ^ 2) * (detected E a n f tp ts d).2.1 := by
    intro tp ts d
    have := hE.integ c (fun i => fin (f (anglesDet a n i)).1 * tp i) (fun i => fin (f (anglesDet a n i)).2 * ts i) d a.num_angles
      (anglesDet a n) (2 * Real.pi * n / a.wavelen) a.phi_min a.phi_max hc
    rw [← hk] at this
    exact congrArg (fun x => x.2.1) this
  have h2 : ∀ tp ts d, (detected E (inUnit c a) n f tp ts (c * d)).2.2 = fin (c ^ 2) * (detected E a n f tp ts d).2.2 := by
    intro tp ts d
    have := hE.integ c (fun i => fin (f (anglesDet a n i)).1 * tp i) (fun i => fin (f (anglesDet a n i)).2 * ts i) d a.num_angles
      (anglesDet a n) (2 * Real.pi * n / a.wavelen) a.phi_min a.phi_max hc
    rw [← hk] at this
    exact congrArg (fun x => x.2.2) this
  have h3 : ∀ d, total E (inUnit c a) n f (c * d) = fin (c ^ 2) * total E a n f d := by
    intro d
    have := hE.integ c (fun i => fin (f (Reflection.anglesTot a i)).1) (fun i => fin (f (Reflection.anglesTot a i)).2) d a.num_angles
      (Reflection.anglesTot a) (2 * Real.pi * n / a.wavelen) 0 (2 * Real.pi) hc
    rw [← hk] at this
    exact congrArg (fun x => x.1) this
  have h4 : ∀ d, asymmetry E (inUnit c a) n f (c * d) = fin (c ^ 2) * asymmetry E a n f d := by
    intro d
    have := hE.integ c (fun i => fin ((f (Reflection.anglesTot a i)).1 * Real.cos (Reflection.anglesTot a i)))
      (fun i => fin ((f (Reflection.anglesTot a i)).2 * Real.cos (Reflection.anglesTot a i))) d a.num_angles
      (Reflection.anglesTot a) (2 * Real.pi * n / a.wavelen) 0 (2 * Real.pi) hc
    rw [← hk] at this
    exact congrArg (fun x => x.1) this
  have s1 : ∀ tp ts, atSurface (inUnit c a) (fun d => (detected E (inUnit c a) n f tp ts d).2.1) =
      (atSurface a (fun d => (detected E a n f tp ts d).2.1)).map (fin (c ^ 2) * ·) := fun tp ts => surface_scale hc a _ _ (h1 tp ts)
  have s2 : ∀ tp ts, atSurface (inUnit c a) (fun d => (detected E (inUnit c a) n f tp ts d).2.2) =
      (atSurface a (fun d => (detected E a n f tp ts d).2.2)).map (fin (c ^ 2) * ·) := fun tp ts => surface_scale hc a _ _ (h2 tp ts)
  unfold absorbing
  simp only [surface_scale hc a _ _ h3, surface_scale hc a _ _ h4, s1, s2, rho_scale hc]
  simp only [show ∀ i, anglesDet (inUnit c a) n i = anglesDet a n i from fun _ => rfl, bind, Except.bind]
  rcases Fresnel.fresnelTransmissionC (n := 1) a.n_medium n (fun _ => a.incident) with e | ⟨tp, ts⟩
  · rfl
  rcases Fresnel.fresnelReflectionC (n := 1) a.n_medium n (fun _ => a.incident) with e | ⟨rp, rs⟩
  · rfl
  dsimp only
  rcases Fresnel.fresnelTransmissionC (n := a.num_angles) n a.n_medium (fun i => Real.pi - anglesDet a n i) with e | ⟨tp', ts'⟩
  · rfl
  dsimp only
  rcases atSurface a (fun d => (detected E a n f (fun i => if h : i < a.num_angles then tp' ⟨i, h⟩ else fin 0)
    (fun i => if h : i < a.num_angles then ts' ⟨i, h⟩ else fin 0) d).2.1) with e | dp
  · rfl
  rcases atSurface a (fun d => (detected E a n f (fun i => if h : i < a.num_angles then tp' ⟨i, h⟩ else fin 0)
    (fun i => if h : i < a.num_angles then ts' ⟨i, h⟩ else fin 0) d).2.2) with e | ds
  · rfl
  rcases atSurface a (total E a n f) with e | cs
  · rfl
  rcases atSurface a (asymmetry E a n f) with e | au
  · rfl
  simp only [Except.map]
  have hcabs : fin (4 * Real.pi * n.im / (c * a.wavelen)) / fin (rhoOf a / c ^ 3) =
      fin (c ^ 2) * (fin (4 * Real.pi * n.im / a.wavelen) / fin (rhoOf a)) := by
    have e1 : fin (4 * Real.pi * n.im / (c * a.wavelen)) = fin (1 / c) * fin (4 * Real.pi * n.im / a.wavelen) := by
      rw [fin_mul, fin_inj, one_div_mul_eq_div, div_div, mul_comm c]
    have e2 : fin (rhoOf a / c ^ 3) = fin (1 / c ^ 3) * fin (rhoOf a) := by rw [fin_mul, fin_inj]; ring
    rw [e1, e2, div_scale_right hc3, div_scale_left (by positivity), mul_mul _ _ (by positivity) (by positivity)]
    congr 2
    field_simp
  rw [hcabs]
  set cabs := fin (4 * Real.pi * n.im / a.wavelen) / fin (rhoOf a)
  simp only [scale_add hc2, scale_mul_right hc2, ratio hc2]
  have htl : ∀ x : XF, x / fin (rhoOf a / c ^ 3) / (fin (c ^ 2) * cs) = fin c * (x / fin (rhoOf a) / cs) := by
    intro x
    have e2 : fin (rhoOf a / c ^ 3) = fin (1 / c ^ 3) * fin (rhoOf a) := by rw [fin_mul, fin_inj]; ring
    rw [e2, div_scale_right hc3, div_scale_left (by positivity), div_scale_right hc2, mul_mul _ _ (by positivity) (by positivity)]
    congr 2
    field_simp
  rw [htl]
  have hfac : ∀ L : ℝ, fin (c ^ 2) * (fin (-(rhoOf a / c ^ 3)) * (cs + cabs)) * fin (c * L) = fin (-rhoOf a) * (cs + cabs) * fin L := by
    intro L
    have e1 : fin (-(rhoOf a / c ^ 3)) = fin (1 / c ^ 3) * fin (-rhoOf a) := by rw [fin_mul, fin_inj]; ring
    rw [e1, ← fin_mul c L, scale_mul_left hc3, scale_mul_left hc2, scale_mul_left hc3, scale_mul_right hc, mul_mul _ _ hc3 hc,
      mul_mul _ _ hc2 (by positivity)]
    have e2 : c ^ 2 * (1 / c ^ 3 * c) = 1 := by field_simp
    rw [e2, one_mul']
  cases a.thickness with
  | none => rfl
  | some L => simp only [Option.map_some, hfac L]

/-! ## C133 -/

/-- **C133 (a).**  `reflection` gives the same reflectances and asymmetry parameter, and the same transport length expressed in the other
unit, when every length is given in another unit; and the same error if there is one. -/
theorem C133_reflection_units (E : Ext) (hE : UnitFree E) {c : ℝ} (hc : 0 < c) (a : Reflection.Args) :
    Reflection.reflection E (inUnit c a) =
      (Reflection.reflection E a).map fun o => { o with transport_length := fin c * o.transport_length } := by
  unfold Reflection.reflection
  rw [sample_scale E hc]
  simp only [show (inUnit c a).n_particle = a.n_particle from rfl, show (inUnit c a).radius = a.radius.map (c * ·) from rfl, List.length_map]
  split
  · rfl
  simp only [bind, Except.bind]
  rcases sampleOf E a with e | ⟨n, xe⟩
  · rfl
  dsimp only
  rw [call_scale hc, hE.dcs c _ hc]
  rcases E.dcs (dcsCall a n xe) with e | f
  · rfl
  dsimp only
  split
  · exact absorbing_scale E hE hc a n f
  · refine transparent_scale (transparent E a n (dcsCall a n xe) f)
      (transparent E (inUnit c a) n (inUnitCall c (dcsCall a n xe)) f) hc rfl rfl rfl rfl rfl rfl rfl rfl rfl ?_ (rho_scale hc a) ?_ rfl a.thickness
    · simp only [transparent, inUnit]
      rw [mul_comm c, div_div]
    · simp only [transparent]
      change E.cabs (dcsCall a n xe).m (dcsCall a n xe).x (((c * a.wavelen : ℝ) : ℂ) / n) = _
      rw [← hE.cabs c _ _ _ hc]
      push_cast
      rw [mul_div_assoc]

private theorem density_scale {c : ℝ} (hc : 0 < c) (mc : CalcScat.Args) :
    CalcScat.densityOf (inUnitMC c mc) = fin (1 / c ^ 3) * CalcScat.densityOf mc := by
  have hc3 : 0 < c ^ 3 := by positivity
  unfold CalcScat.densityOf Init.numberDensity CalcScat.concentrationOf
  have h2 : CalcScat.radius2Of (inUnitMC c mc) = (CalcScat.radius2Of mc).map (c * ·) := getD_scale c mc.radius2 mc.radius
  rw [h2]
  simp only [inUnitMC, outer_mul hc, mul_pow, Option.getD_some]
  have e : ∀ r r' x y, fin 1 / (fin (c ^ 3 * r) + fin (c ^ 3 * r') * fin x / fin y) = fin (1 / c ^ 3) * (fin 1 / (fin r + fin r' * fin x / fin y)) := by
    intro r r' x y
    rw [← fin_mul, ← fin_mul (c ^ 3) r', scale_mul_left hc3, div_scale_left hc3, scale_add hc3, div_scale_right hc3]
  rw [e, e, scale_add (by positivity), scale_mul_right (by positivity)]

private theorem mcCall_scale {c : ℝ} (hc : 0 < c) (mc : CalcScat.Args) (n : ℂ) (xe : Option (List ℂ)) (ft : Option String)
    (st : SingleScat.StructType) :
    ofPhase (inUnitMC c mc) (CalcScat.mainCall (inUnitMC c mc) n xe ft st) = inUnitCall c (ofPhase mc (CalcScat.mainCall mc n xe ft st)) ∧
    (CalcScat.mainCall (inUnitMC c mc) n xe ft st).k = (CalcScat.mainCall mc n xe ft st).k / c := by
  have h2 : CalcScat.radius2Of (inUnitMC c mc) = (CalcScat.radius2Of mc).map (c * ·) := getD_scale c mc.radius2 mc.radius
  have hk : 2 * (Real.pi : ℂ) * n / ((c * mc.wavelen : ℝ) : ℂ) = 2 * Real.pi * n / mc.wavelen / c := by
    push_cast
    rw [mul_comm (c : ℂ), div_div]
  have hd : CalcScat.distanceOf (CalcScat.mainCall (inUnitMC c mc) n xe ft st) = (CalcScat.distanceOf (CalcScat.mainCall mc n xe ft st)).map (c * ·) := by
    simp only [CalcScat.distanceOf, CalcScat.mainCall, CalcScat.diametersOf, h2]
    simp only [inUnitMC, map_two, outer_mul hc, ← mul_max_of_nonneg _ _ hc.le, mul_div_assoc]
    by_cases h : ft = some "polydisperse" <;> simp [h]
  refine ⟨?_, hk⟩
  simp only [ofPhase, inUnitCall, hd]
  simp only [CalcScat.mainCall, CalcScat.diametersOf, h2]
  simp only [inUnitMC, size_scale hc, map_two, hk]
  rfl

private theorem num_scale {s : ℝ} (hs : 0 < s) (x : XF) : num (fin s * x) = s * num x := by
  cases x with
  | fin a => rw [fin_mul]; rfl
  | pinf => rw [mul_pinf hs]; simp [num]
  | ninf => rw [mul_ninf hs]; simp [num]
  | nan => rw [UnitScale.mul_nan]; simp [num]

/-- the call of `phase_function` inside `calc_scat` -/
private noncomputable def pf (E : Ext) (mc : CalcScat.Args) : CalcScat.Call → Except PyErr ((Fin mc.num_angles → XF) × ℝ) :=
  CalcScat.phaseFunction (num := mc.num_angles)
    (fun c => do
      let f ← E.dcs (ofPhase mc c)
      return (fun i => (f (CalcScat.thetas mc i)).1, fun i => (f (CalcScat.thetas mc i)).2))
    (fun par perp ds => num (E.integ (fun i => fin (par i)) (fun i => fin (perp i)) (ds.headD 0) mc.num_angles (CalcScat.thetas mc)
      (2 * Real.pi * (if mc.effective_medium_form then mc.n_sample else mc.n_matrix.getD 0) / mc.wavelen) 0 (2 * Real.pi)).1)
    (CalcScat.thetas mc)

private theorem pf_scale (E : Ext) (hE : UnitFree E) {c : ℝ} (hc : 0 < c) (mc : CalcScat.Args) (n : ℂ) (xe : Option (List ℂ))
    (ft : Option String) (st : SingleScat.StructType) :
    pf E (inUnitMC c mc) (CalcScat.mainCall (inUnitMC c mc) n xe ft st) =
      (pf E mc (CalcScat.mainCall mc n xe ft st)).map fun r => (r.1, c ^ 2 * r.2) := by
  have hc2 : 0 < c ^ 2 := by positivity
  obtain ⟨hcall, hk⟩ := mcCall_scale hc mc n xe ft st
  have h2 : CalcScat.radius2Of (inUnitMC c mc) = (CalcScat.radius2Of mc).map (c * ·) := getD_scale c mc.radius2 mc.radius
  unfold pf CalcScat.phaseFunction
  simp only [bind, Except.bind]
  rw [hcall, hE.dcs c _ hc]
  rcases E.dcs (ofPhase mc (CalcScat.mainCall mc n xe ft st)) with e | f
  · rfl
  dsimp only [pure, Except.pure, Except.map]
  set K : ℂ := 2 * Real.pi * (if mc.effective_medium_form then mc.n_sample else mc.n_matrix.getD 0) / mc.wavelen with hK
  have hk' : 2 * (Real.pi : ℂ) * (if (inUnitMC c mc).effective_medium_form then (inUnitMC c mc).n_sample else (inUnitMC c mc).n_matrix.getD 0) /
      (((inUnitMC c mc).wavelen : ℝ) : ℂ) = K / c := by
    rw [hK]
    change _ / ((c * mc.wavelen : ℝ) : ℂ) = _
    push_cast
    rw [mul_comm (c : ℂ), div_div]
  have hint : ∀ (par perp : ℕ → ℝ) (d : ℝ),
      num (E.integ (fun i => fin (par i)) (fun i => fin (perp i)) (c * d) mc.num_angles (CalcScat.thetas mc) (K / c) 0 (2 * Real.pi)).1 =
      c ^ 2 * num (E.integ (fun i => fin (par i)) (fun i => fin (perp i)) d mc.num_angles (CalcScat.thetas mc) K 0 (2 * Real.pi)).1 := by
    intro par perp d
    rw [hE.integ c _ _ _ _ _ _ _ _ hc, num_scale hc2]
  have hthe : CalcScat.thetas (inUnitMC c mc) = CalcScat.thetas mc := rfl
  rw [hk', hthe]
  congr 2
  set par : ℕ → ℝ := fun i => (f (CalcScat.thetas mc i)).1
  set perp : ℕ → ℝ := fun i => (f (CalcScat.thetas mc i)).2
  have him : 0 < |((CalcScat.mainCall mc n xe ft st).k / c).im| ↔ 0 < |(CalcScat.mainCall mc n xe ft st).k.im| := by
    rw [Complex.div_ofReal_im, abs_div, abs_of_pos hc, div_pos_iff_of_pos_right hc]
  have hinv : 1 / ‖(CalcScat.mainCall mc n xe ft st).k / c‖ ^ 2 = c ^ 2 * (1 / ‖(CalcScat.mainCall mc n xe ft st).k‖ ^ 2) := by
    rw [norm_div, Complex.norm_real, Real.norm_of_nonneg hc.le, div_pow, one_div_div, mul_one_div]
  have hdist : (CalcScat.distanceOf (CalcScat.mainCall (inUnitMC c mc) n xe ft st)).headD 0 =
      c * (CalcScat.distanceOf (CalcScat.mainCall mc n xe ft st)).headD 0 := by
    simp only [CalcScat.distanceOf, CalcScat.mainCall, CalcScat.diametersOf, h2]
    simp only [inUnitMC, map_two, outer_mul hc, ← mul_max_of_nonneg _ _ hc.le, mul_div_assoc]
    by_cases h : ft = some "polydisperse" <;> simp [h]
  have hd1 : CalcScat.outer (CalcScat.mainCall (inUnitMC c mc) n xe ft st).diameters.1 / 2 =
      c * (CalcScat.outer (CalcScat.mainCall mc n xe ft st).diameters.1 / 2) := by
    simp only [CalcScat.mainCall, CalcScat.diametersOf, inUnitMC, map_two, outer_mul hc, mul_div_assoc]
  have hd2 : CalcScat.outer (CalcScat.mainCall (inUnitMC c mc) n xe ft st).diameters.2 / 2 =
      c * (CalcScat.outer (CalcScat.mainCall mc n xe ft st).diameters.2 / 2) := by
    simp only [CalcScat.mainCall, CalcScat.diametersOf, h2, map_two, outer_mul hc, mul_div_assoc]
  unfold CalcScat.crossSection
  rw [hk]
  simp only [hinv, hd1, hd2, hdist, List.headD_cons]
  simp only [show (CalcScat.mainCall (inUnitMC c mc) n xe ft st).cartesian = (CalcScat.mainCall mc n xe ft st).cartesian from rfl,
    show (CalcScat.mainCall (inUnitMC c mc) n xe ft st).form_type = (CalcScat.mainCall mc n xe ft st).form_type from rfl,
    show (CalcScat.mainCall (inUnitMC c mc) n xe ft st).concentration = (CalcScat.mainCall mc n xe ft st).concentration from rfl,
    show (inUnitMC c mc).num_angles = mc.num_angles from rfl, hint, him]
  split
  · rfl
  split
  · split
    · ring
    · rfl
  · have e : ∀ cs : ℕ → ℝ, SingleScat.integrateCS mc.num_angles cs (fun _ => c ^ 2 * (1 / ‖(CalcScat.mainCall mc n xe ft st).k‖ ^ 2))
        (CalcScat.thetas mc) (2 * Real.pi) = c ^ 2 * SingleScat.integrateCS mc.num_angles cs
          (fun _ => 1 / ‖(CalcScat.mainCall mc n xe ft st).k‖ ^ 2) (CalcScat.thetas mc) (2 * Real.pi) := by
      intro cs
      unfold SingleScat.integrateCS
      rw [mul_left_comm (c ^ 2), ← trapz_mul (c ^ 2)]
      congr 2
      funext i
      ring
    rw [e, e]
    ring

/-- **C133 (b).**  `calc_scat` gives the same phase function, and the same coefficients expressed in the other unit, when every length is
given in another unit; and the same error if there is one. -/
theorem C133_calc_scat_units (E : Ext) (hE : UnitFree E) {c : ℝ} (hc : 0 < c) (mc : CalcScat.Args) :
    mcScat E (inUnitMC c mc) =
      (mcScat E mc).map fun r => (r.1, r.2.1.map (fin (1 / c) * ·), fin (1 / c) * r.2.2) := by
  have hc2 : 0 < c ^ 2 := by positivity
  have hc3 : 0 < 1 / c ^ 3 := by positivity
  have hs : CalcScat.sampleFor (inUnitMC c mc) = CalcScat.sampleFor mc := by
    simp only [CalcScat.sampleFor, inUnitMC, size_scale hc]
  have ht : CalcScat.typesFor (inUnitMC c mc) = CalcScat.typesFor mc := rfl
  change CalcScat.calcScat (pf E (inUnitMC c mc)) (inUnitMC c mc) = Except.map _ (CalcScat.calcScat (pf E mc) mc)
  have hmu : ∀ σ : ℝ, fin (1 / c ^ 3) * CalcScat.densityOf mc * fin (c ^ 2 * σ) = fin (1 / c) * (CalcScat.densityOf mc * fin σ) := by
    intro σ
    rw [← fin_mul, scale_mul_left hc3, scale_mul_right hc2, mul_mul _ _ hc3 hc2]
    congr 2
    field_simp
  have hmua : ∀ i : ℝ, fin (4 * Real.pi * i) / fin (c * mc.wavelen) = fin (1 / c) * (fin (4 * Real.pi * i) / fin mc.wavelen) := by
    intro i
    rw [← fin_mul c, div_scale_right hc]
  have hmie : ∀ (b : CalcScat.Args) (nm : ℂ) (ft : Option String), CalcScat.mieCall b nm ft = CalcScat.mainCall b nm none ft .none :=
    fun _ _ _ => rfl
  unfold CalcScat.calcScat
  rw [hs, ht, density_scale hc]
  simp only [bind, Except.bind]
  rcases CalcScat.sampleFor mc with e | ⟨n, xe⟩
  · rfl
  dsimp only
  rcases CalcScat.typesFor mc with e | ⟨ft, st⟩
  · rfl
  dsimp only
  rw [pf_scale E hE hc]
  rcases pf E mc (CalcScat.mainCall mc n xe ft st) with e | ⟨p, σ⟩
  · rfl
  simp only [Except.map, Init.muScatAbs, hmu]
  simp only [show (inUnitMC c mc).fine_roughness = mc.fine_roughness from rfl, show (inUnitMC c mc).n_matrix = mc.n_matrix from rfl,
    show (inUnitMC c mc).wavelen = c * mc.wavelen from rfl, hmua]
  split
  · rcases mc.n_matrix with _ | nm
    · rfl
    dsimp only
    rw [hmie, hmie, pf_scale E hE hc]
    rcases pf E mc (CalcScat.mainCall mc nm none ft .none) with e | ⟨p', σ'⟩
    · rfl
    simp only [Except.map, pure, Except.pure, hmu, List.map]
  · rfl

/-! ## Polydisperse samples: the smallest diameter is a number, whatever the unit -/

private theorem raw_scale {c m t d : ℝ} (hc : 0 < c) (hm : 0 < m) (ht : -1 < t) (hd : 0 ≤ d) :
    SingleScat.rawDistribution (c * m) t (c * d) = SingleScat.rawDistribution m t d / c := by
  have h1 : 0 < t + 1 := by linarith
  unfold SingleScat.rawDistribution
  split
  · rw [show (t + 1) / (c * m) = (t + 1) / m / c by rw [div_div, mul_comm m], Real.div_rpow (by positivity) hc.le, Real.mul_rpow hc.le hd,
      show -(c * d) / (c * m) = -d / m by rw [← mul_neg, mul_div_mul_left _ _ hc.ne'], Real.rpow_add_one hc.ne']
    have := Real.rpow_pos_of_pos hc t
    field_simp
  · dsimp only
    have e1 : -(c * d - c * m) ^ 2 / (2 * (c * d / Real.sqrt (t + 1)) ^ 2) = -(d - m) ^ 2 / (2 * (d / Real.sqrt (t + 1)) ^ 2) := by
      rw [show -(c * d - c * m) ^ 2 = c ^ 2 * -(d - m) ^ 2 by ring,
        show 2 * (c * d / Real.sqrt (t + 1)) ^ 2 = c ^ 2 * (2 * (d / Real.sqrt (t + 1)) ^ 2) by ring, mul_div_mul_left _ _ (by positivity)]
    have e2 : Real.sqrt (2 * Real.pi * (c * d / Real.sqrt (t + 1)) ^ 2) = c * Real.sqrt (2 * Real.pi * (d / Real.sqrt (t + 1)) ^ 2) := by
      rw [show 2 * Real.pi * (c * d / Real.sqrt (t + 1)) ^ 2 = c ^ 2 * (2 * Real.pi * (d / Real.sqrt (t + 1)) ^ 2) by ring,
        Real.sqrt_mul (by positivity), Real.sqrt_sq hc.le]
    rw [e1, e2, div_div, mul_comm c]

private theorem trapz_scale (c : ℝ) (n : ℕ) (y x : ℕ → ℝ) :
    SingleScat.trapz n y (fun i => c * x i) = c * SingleScat.trapz n y x := by
  unfold SingleScat.trapz
  rw [Finset.mul_sum]
  exact Finset.sum_congr rfl fun i _ => by ring

private theorem sqrt_width (pdi : ℝ) : Real.sqrt (SingleScat.polyWidth pdi + 1) = 1 / Structure.clampPdi pdi ∧ -1 < SingleScat.polyWidth pdi := by
  have hp := clampPdi_pos pdi
  have hw : SingleScat.polyWidth pdi + 1 = (1 / Structure.clampPdi pdi) ^ 2 := by
    unfold SingleScat.polyWidth
    rw [abs_of_pos (by positivity)]; field_simp; ring
  refine ⟨by rw [hw, Real.sqrt_sq (by positivity)], ?_⟩
  have : 0 < (1 / Structure.clampPdi pdi) ^ 2 := by positivity
  linarith

/-- the same species with its diameter in the other unit -/
def speciesIn (c : ℝ) (s : Structure.Species) : Structure.Species := { s with d := c * s.d }

/-- **C133 (c), partial.**  The form factor of polydisperse particles does not depend on the unit of length as long as no polydispersity
index exceeds 1/3: then the smallest diameter considered, three standard deviations below the mean, is not negative.  `form` is the
form factor of one sphere as a function of its diameter. -/
theorem C133_polydisperse_partial (form : ℝ → ℝ) (species : List Structure.Species) {c : ℝ} (hc : 0 < c)
    (hs : ∀ s ∈ species, 0 < s.d ∧ s.pdi ≤ 1 / 3) :
    SingleScat.polydisperseFormFactor (fun x => form (x / c)) (species.map (speciesIn c)) = SingleScat.polydisperseFormFactor form species := by
  unfold SingleScat.polydisperseFormFactor
  rw [List.map_map]
  congr 1
  refine List.map_congr_left fun s hmem => ?_
  obtain ⟨hd, hp⟩ := hs s hmem
  obtain ⟨hsq, hw⟩ := sqrt_width s.pdi
  have hcl := clampPdi_pos s.pdi
  have hcl3 : Structure.clampPdi s.pdi ≤ 1 / 3 := by
    unfold Structure.clampPdi
    split
    · norm_num
    · exact hp
  have hmin : ∀ d, 0 < d → SingleScat.minDiameter d s.pdi = d * (1 - 3 * Structure.clampPdi s.pdi) := by
    intro d hd
    have e : d - 3 * d / (1 / Structure.clampPdi s.pdi) = d * (1 - 3 * Structure.clampPdi s.pdi) := by field_simp
    unfold SingleScat.minDiameter
    dsimp only
    rw [hsq, e, if_neg]
    have : 0 ≤ 1 - 3 * Structure.clampPdi s.pdi := by linarith
    have := mul_nonneg hd.le this
    linarith
  have hmax : ∀ d, SingleScat.maxDiameter d s.pdi = d * (1 + 3 * Structure.clampPdi s.pdi) := by
    intro d
    unfold SingleScat.maxDiameter
    rw [hsq]
    field_simp
  have hr : ∀ d, 0 < d → ∀ i, SingleScat.diameterRange d s.pdi i =
      d * (1 - 3 * Structure.clampPdi s.pdi + i * (6 * Structure.clampPdi s.pdi / 49)) := by
    intro d hd i
    unfold SingleScat.diameterRange Traj.linspace
    rw [hmin d hd, hmax, if_neg (by norm_num)]
    push_cast
    ring
  have hrange : SingleScat.diameterRange (c * s.d) s.pdi = fun i => c * SingleScat.diameterRange s.d s.pdi i := by
    funext i
    rw [hr _ (by positivity), hr _ hd]
    ring
  have hr0 : ∀ i, 0 ≤ SingleScat.diameterRange s.d s.pdi i := by
    intro i
    rw [hr _ hd]
    have : 0 ≤ 1 - 3 * Structure.clampPdi s.pdi := by linarith
    positivity
  simp only [Function.comp, speciesIn, hrange, raw_scale hc hd hw (hr0 _), trapz_scale, mul_div_cancel_left₀ _ hc.ne']
  rw [show (fun i => SingleScat.rawDistribution s.d (SingleScat.polyWidth s.pdi) (SingleScat.diameterRange s.d s.pdi i) / c) =
    fun i => 1 / c * SingleScat.rawDistribution s.d (SingleScat.polyWidth s.pdi) (SingleScat.diameterRange s.d s.pdi i) by
      funext i; rw [one_div_mul_eq_div], trapz_mul, ← mul_assoc c, mul_one_div_cancel hc.ne', one_mul]
  set T := SingleScat.trapz 50 (fun j => SingleScat.rawDistribution s.d (SingleScat.polyWidth s.pdi) (SingleScat.diameterRange s.d s.pdi j))
    (SingleScat.diameterRange s.d s.pdi)
  rw [show (fun i => form (SingleScat.diameterRange s.d s.pdi i) *
      (SingleScat.rawDistribution s.d (SingleScat.polyWidth s.pdi) (SingleScat.diameterRange s.d s.pdi i) / c / T)) =
    fun i => 1 / c * (form (SingleScat.diameterRange s.d s.pdi i) *
      (SingleScat.rawDistribution s.d (SingleScat.polyWidth s.pdi) (SingleScat.diameterRange s.d s.pdi i) / T)) by
      funext i; field_simp, trapz_mul, ← mul_assoc c, mul_one_div_cancel hc.ne', one_mul]

/-- **C133 (c), refuted.**  Above 1/3 it does: the smallest diameter is then the number 1e-6 in whatever unit the diameters are.  For every
such index and every diameter above 1e-6 in one unit there is another unit in which that number exceeds the largest diameter of the distribution, so that every
diameter at which the form factor is evaluated, but the last, is larger than any particle; and a form factor that vanishes for all the
particles of the distribution gets a positive average. -/
theorem C133_polydisperse_refuted (d pdi : ℝ) (hd' : 1e-6 < d) (hp : 1 / 3 < pdi) :
    ∃ c > 0, (∀ i < 49, SingleScat.maxDiameter (c * d) pdi < SingleScat.diameterRange (c * d) pdi i) ∧
      ∃ form : ℝ → ℝ, (∀ x ≤ SingleScat.maxDiameter d pdi, form x = 0) ∧
        SingleScat.polydisperseFormFactor form [⟨1, d, pdi⟩] = 0 ∧
        0 < SingleScat.polydisperseFormFactor (fun x => form (x / c)) [speciesIn c ⟨1, d, pdi⟩] := by
  have hd : 0 < d := lt_trans (by norm_num) hd'
  obtain ⟨hsq, hw⟩ := sqrt_width pdi
  have hcl : Structure.clampPdi pdi = pdi := by
    unfold Structure.clampPdi
    rw [if_neg (by norm_num; linarith)]
  rw [hcl] at hsq
  have hp0 : 0 < pdi := by linarith
  have hmax : ∀ d, SingleScat.maxDiameter d pdi = d * (1 + 3 * pdi) := by
    intro d
    unfold SingleScat.maxDiameter
    rw [hsq]
    field_simp
  have hmin : ∀ d, 0 < d → SingleScat.minDiameter d pdi = 0.000001 := by
    intro d hd
    have e : d - 3 * d / (1 / pdi) = d * (1 - 3 * pdi) := by field_simp
    unfold SingleScat.minDiameter
    dsimp only
    rw [hsq, e, if_pos]
    exact mul_neg_of_pos_of_neg hd (by linarith)
  set M := d * (1 + 3 * pdi) with hM
  have hM0 : 0 < M := by positivity
  set c := (1e-7 : ℝ) / M with hcdef
  have hc : 0 < c := by rw [hcdef]; positivity
  have hcM : SingleScat.maxDiameter (c * d) pdi = 1e-7 := by
    rw [hmax, mul_assoc, ← hM, hcdef, div_mul_cancel₀ _ hM0.ne']
  have hrange : ∀ i : ℕ, SingleScat.diameterRange (c * d) pdi i = 1e-6 - i * (9e-7 / 49) := by
    intro i
    unfold SingleScat.diameterRange Traj.linspace
    rw [hcM, hmin _ (by positivity), if_neg (by norm_num)]
    push_cast
    ring
  have hgt : ∀ i < 49, SingleScat.maxDiameter (c * d) pdi < SingleScat.diameterRange (c * d) pdi i := by
    intro i hi
    rw [hcM, hrange]
    have : (i : ℝ) ≤ 48 := by exact_mod_cast (by omega : i ≤ 48)
    norm_num
    nlinarith
  have hpos : ∀ i < 50, 0 < SingleScat.diameterRange (c * d) pdi i := by
    intro i hi
    rw [hrange]
    have : (i : ℝ) ≤ 49 := by exact_mod_cast (by omega : i ≤ 49)
    norm_num
    nlinarith
  refine ⟨c, hc, hgt, fun x => if x ≤ M then 0 else 1, fun x hx => if_pos (by rw [hmax] at hx; exact hx), ?_, ?_⟩
  · have hin : ∀ i < 50, SingleScat.diameterRange d pdi i ≤ M := by
      intro i hi
      unfold SingleScat.diameterRange Traj.linspace
      rw [hmax, hmin _ hd, if_neg (by norm_num), ← hM]
      have h1 : (i : ℝ) ≤ 49 := by exact_mod_cast (by omega : i ≤ 49)
      have h2 : (0.000001 : ℝ) ≤ M := by
        rw [hM]
        nlinarith
      push_cast
      nlinarith
    have h0 : SingleScat.polydisperseFormFactor (fun x => if x ≤ M then 0 else 1) [⟨1, d, pdi⟩] = 0 := by
      unfold SingleScat.polydisperseFormFactor
      simp only [List.map_cons, List.map_nil, List.sum_cons, List.sum_nil, mul_one, add_zero]
      unfold SingleScat.trapz
      refine Finset.sum_eq_zero fun i hi => ?_
      have hi := Finset.mem_range.mp hi
      dsimp only
      rw [if_pos (hin i (by omega)), if_pos (hin (i + 1) (by omega))]
      ring
    exact h0
  · have hraw : ∀ i < 50, 0 < SingleScat.rawDistribution (c * d) (SingleScat.polyWidth pdi) (SingleScat.diameterRange (c * d) pdi i) :=
      fun i hi => rawDistribution_pos (by positivity) hw (hpos i hi)
    have hstep : ∀ i, SingleScat.diameterRange (c * d) pdi (i + 1) - SingleScat.diameterRange (c * d) pdi i < 0 := by
      intro i
      rw [hrange, hrange]
      push_cast
      norm_num
    have hT : SingleScat.trapz 50 (fun j => SingleScat.rawDistribution (c * d) (SingleScat.polyWidth pdi) (SingleScat.diameterRange (c * d) pdi j))
        (SingleScat.diameterRange (c * d) pdi) < 0 := by
      unfold SingleScat.trapz
      refine Finset.sum_neg (fun i hi => ?_) ⟨0, by simp⟩
      have hi := Finset.mem_range.mp hi
      have := hraw i (by omega)
      have := hraw (i + 1) (by omega)
      exact div_neg_of_neg_of_pos (mul_neg_of_neg_of_pos (hstep i) (by linarith)) two_pos
    unfold SingleScat.polydisperseFormFactor
    simp only [speciesIn, List.map_cons, List.map_nil, List.sum_cons, List.sum_nil, mul_one, add_zero]
    set T := SingleScat.trapz 50 (fun j => SingleScat.rawDistribution (c * d) (SingleScat.polyWidth pdi) (SingleScat.diameterRange (c * d) pdi j))
        (SingleScat.diameterRange (c * d) pdi)
    have hw' : ∀ i < 50, SingleScat.rawDistribution (c * d) (SingleScat.polyWidth pdi) (SingleScat.diameterRange (c * d) pdi i) / T < 0 :=
      fun i hi => div_neg_of_pos_of_neg (hraw i hi) hT
    have hle : ∀ i < 50, (if SingleScat.diameterRange (c * d) pdi i / c ≤ M then (0 : ℝ) else 1) *
        (SingleScat.rawDistribution (c * d) (SingleScat.polyWidth pdi) (SingleScat.diameterRange (c * d) pdi i) / T) ≤ 0 := by
      intro i hi
      split
      · rw [zero_mul]
      · rw [one_mul]; exact (hw' i hi).le
    have h0 : ¬ SingleScat.diameterRange (c * d) pdi 0 / c ≤ M := by
      rw [not_le, lt_div_iff₀ hc, hcdef, mul_div_cancel₀ _ hM0.ne']
      have := hgt 0 (by norm_num)
      rw [hcM] at this
      exact this
    unfold SingleScat.trapz
    refine Finset.sum_pos' (fun i hi => ?_) ⟨0, by simp, ?_⟩
    · have hi := Finset.mem_range.mp hi
      have h1 := hle i (by omega)
      have h2 := hle (i + 1) (by omega)
      exact div_nonneg (mul_nonneg_of_nonpos_of_nonpos (hstep i).le (by linarith)) two_pos.le
    · have h2 := hle 1 (by norm_num)
      have h3 := hw' 0 (by norm_num)
      dsimp only
      rw [if_neg h0, one_mul]
      exact div_pos (mul_pos_of_neg_of_neg (hstep 0) (by simp only [zero_add]; linarith)) two_pos

/-- a case of C133 (a) and (b): the parts of the examples of the two models do not depend on the unit, and both models run -/
theorem demoExt_unitFree : UnitFree demoExt where
  dcs := fun _ _ _ => rfl
  cabs := fun _ _ _ _ _ => by simp [demoExt]
  integ := fun c _ _ _ _ _ _ _ _ _ => by simp [demoExt]

example : UnitFree demoExt ∧ (∃ o, Reflection.reflection demoExt demoRefl = .ok o) ∧ ∃ r, mcScat demoExt demoMC = .ok r := by
  have hrho : 0 < rhoOf { demoRefl with radius2 := none, concentration := none } := by
    simp only [rhoOf, demoRefl, SingleScat.rho, SingleScat.numberDensity, CalcScat.outer, List.foldr]
    have := Real.pi_pos
    norm_num
    try positivity
  obtain ⟨o, p, mus, mua, g, l, -, -, ho, hm, -⟩ := demo_runs none none hrho
  exact ⟨demoExt_unitFree, ⟨o, ho⟩, ⟨_, hm⟩⟩

/-- a case of C133 (c): two species with a polydispersity index of 5 per cent, and one with 50 per cent -/
example : (∀ s ∈ [(⟨0.5, 0.2, 0.05⟩ : Structure.Species), ⟨0.5, 0.3, 0.05⟩], 0 < s.d ∧ s.pdi ≤ 1 / 3) ∧ (1e-6 : ℝ) < 0.2 ∧ (1 / 3 : ℝ) < 0.5 := by
  refine ⟨fun s hs => ?_, by norm_num, by norm_num⟩
  simp only [List.mem_cons, List.not_mem_nil, or_false] at hs
  rcases hs with rfl | rfl <;> norm_num

end Verif.Props
