import Verif.Model.Reflection
import Verif.Props.CalcScat
import Verif.Props.SingleScat2
import Verif.Props.ComplexFresnel

/-!
# Property C121: the single-scattering model and the Monte Carlo model describe the same sample
-/

namespace Verif.Props
open Classical XF Verif.Reflection
open Verif.SingleScat (ReflOut StructType vfArray)

/-- what a successful call of `reflection` did, as far as the transport length is concerned -/
private theorem reflection_inv {E : Ext} {a : Reflection.Args} {o : ReflOut} (h : Reflection.reflection E a = .ok o) :
    a.n_particle.length = a.radius.length ∧ ∃ n xe f, sampleOf E a = .ok (n, xe) ∧ E.dcs (dcsCall a n xe) = .ok f ∧
      ∃ cs : XF, o.transport_length = fin 1 / (fin 1 - o.asymmetry) / fin (rhoOf a) / cs ∧
        (n.im ≠ 0 → atSurface a (total E a n f) = .ok cs) ∧
        (n.im = 0 → cs = fin (SingleScat.cscatTotal (transparent E a n (dcsCall a n xe) f))) := by
  unfold Reflection.reflection at h
  by_cases hl : a.n_particle.length ≠ a.radius.length
  · rw [if_pos hl] at h; exact (nomatch h)
  rw [if_neg hl] at h
  push Not at hl
  refine ⟨hl, ?_⟩
  cases hs : sampleOf E a with
  | error e => rw [hs] at h; exact (nomatch h)
  | ok nx =>
  obtain ⟨n, xe⟩ := nx
  rw [hs] at h
  simp only [bind, Except.bind] at h
  split at h
  · exact (nomatch h)
  next f hf =>
  refine ⟨n, xe, f, rfl, hf, ?_⟩
  split at h
  · next him =>
    have hne : n.im ≠ 0 := abs_pos.mp him
    unfold absorbing at h
    simp only [bind, Except.bind] at h
    split at h
    · exact (nomatch h)
    split at h
    · exact (nomatch h)
    split at h
    · exact (nomatch h)
    split at h
    · exact (nomatch h)
    split at h
    · exact (nomatch h)
    split at h
    · exact (nomatch h)
    next cs hcs =>
    split at h
    · exact (nomatch h)
    simp only [Except.ok.injEq] at h
    subst h
    exact ⟨cs, rfl, fun _ => hcs, fun h0 => absurd h0 hne⟩
  · next him =>
    have h0 : n.im = 0 := by
      by_contra hne; exact him (abs_pos.mpr hne)
    unfold SingleScat.reflection at h
    simp only [bind, Except.bind] at h
    split at h
    · exact (nomatch h)
    split at h
    · exact (nomatch h)
    split at h
    · exact (nomatch h)
    simp only [Except.ok.injEq] at h
    subst h
    exact ⟨_, rfl, fun hne => absurd h0 hne, fun _ => rfl⟩

private theorem div_eq_fin {x : XF} {y z : ℝ} (h : x / fin y = fin z) : ∃ x', x = fin x' ∧ y ≠ 0 ∧ z = x' / y := by
  cases x with
  | nan => simp at h
  | pinf => change (if 0 ≤ y then (pinf : XF) else ninf) = fin z at h; split_ifs at h
  | ninf => change (if 0 ≤ y then (ninf : XF) else pinf) = fin z at h; split_ifs at h
  | fin x' =>
    rw [fin_div_def] at h
    split_ifs at h with h0
    · unfold infOfSign at h; split_ifs at h
    · exact ⟨x', rfl, h0, ((fin_inj _ _).mp h).symm⟩

/-- The arguments of the two models describe one sample of effective index `neff`, on the same grid of scattering angles.  (The defaults
do not: the smallest angle is 1 degree in `reflection` and 0.01 in `calc_scat`.)  Polydispersity is asked for by the types of the two
factors in `reflection`, and by a flag in `calc_scat`. -/
structure SameSample (a : Reflection.Args) (mc : CalcScat.Args) (neff : ℂ) : Prop where
  radius : mc.radius = a.radius
  radius2 : mc.radius2 = a.radius2
  n_particle : mc.n_particle = a.n_particle
  n_matrix : mc.n_matrix = some a.n_matrix
  n_sample : mc.n_sample = neff
  volume_fraction : mc.volume_fraction = a.volume_fraction
  wavelen : mc.wavelen = a.wavelen
  concentration : mc.concentration = a.concentration
  pdi : mc.pdi = a.pdi
  types : (mc.polydisperse = false ∧ mc.form_type = a.form_type ∧ mc.structure_type = a.structure_type) ∨
    (mc.polydisperse = true ∧ mc.structure_type ≠ .str "data" ∧ a.form_type = some "polydisperse" ∧
      a.structure_type = .str "polydisperse")
  effective_struct : mc.effective_medium_struct = a.effective_medium_struct
  effective_form : mc.effective_medium_form = a.effective_medium_form
  fields : mc.fields = false
  smooth : mc.fine_roughness = 0
  min_angle : mc.min_angle = a.small_angle
  num_angles : mc.num_angles = a.num_angles

/-- positive radii, volume fraction and wavelength; non-negative concentrations of which not all are zero; and a sample of the second
species only (`[0, c]`) has two equal radii -/
structure Sensible (a : Reflection.Args) : Prop where
  radius : 0 < CalcScat.outer a.radius
  radius2 : 0 < CalcScat.outer (a.radius2.getD a.radius)
  phi : 0 < a.volume_fraction
  wavelen : 0 < a.wavelen
  conc : ∀ c, a.concentration = some c → 0 ≤ c.1 ∧ 0 ≤ c.2 ∧ 0 < c.1 + c.2 ∧
    (c.1 = 0 → CalcScat.outer (a.radius2.getD a.radius) = CalcScat.outer a.radius)

/-- both models use the same number density -/
theorem density_agree {a : Reflection.Args} {mc : CalcScat.Args} {n : ℂ} (hs : SameSample a mc n) (ha : Sensible a) :
    CalcScat.densityOf mc = fin (rhoOf a) ∧ 0 < rhoOf a := by
  have hpi := Real.pi_pos
  have hphi := ha.phi
  have h1 := ha.radius
  have h2 := ha.radius2
  have e2 : CalcScat.radius2Of mc = a.radius2.getD a.radius := by
    rw [CalcScat.radius2Of, hs.radius2, hs.radius]
  unfold CalcScat.densityOf rhoOf Reflection.radius2Of CalcScat.concentrationOf
  rw [e2, hs.radius, hs.concentration, hs.volume_fraction]
  set r := CalcScat.outer a.radius
  set r2 := CalcScat.outer (a.radius2.getD a.radius)
  cases hc : a.concentration with
  | none =>
    simp only [Option.getD_none]
    rw [numberDensity_eq h1 h2 zero_le_one le_rfl (by norm_num)]
    simp only [SingleScat.rho, SingleScat.numberDensity, fin_inj, ballVolume]
    constructor
    · field_simp
      try ring
    · positivity
  | some c =>
    obtain ⟨c1, c2⟩ := c
    obtain ⟨hc1, hc2, hcs, h0⟩ := ha.conc _ hc
    simp only at hc1 hc2 hcs h0
    simp only [Option.getD_some]
    rw [numberDensity_eq h1 h2 hc1 hc2 hcs]
    simp only [SingleScat.rho, SingleScat.numberDensity, fin_inj, ballVolume]
    by_cases hz : c1 = 0 ∨ c2 = 0
    · rw [if_pos hz]
      refine ⟨?_, by positivity⟩
      rcases hz with hz | hz
      · subst hz
        rw [show r2 = r from h0 rfl]
        have : 0 < c2 := by linarith
        field_simp
        try ring
      · subst hz
        have : 0 < c1 := by linarith
        field_simp
        try ring
    · rw [if_neg hz]
      push Not at hz
      have p1 : 0 < c1 := lt_of_le_of_ne hc1 (Ne.symm hz.1)
      have p2 : 0 < c2 := lt_of_le_of_ne hc2 (Ne.symm hz.2)
      refine ⟨?_, by positivity⟩
      have e1 : 1 / (r ^ 3 + r2 ^ 3 * c2 / c1) = c1 / (c1 * r ^ 3 + c2 * r2 ^ 3) := by field_simp
      have e3 : 1 / (r2 ^ 3 + r ^ 3 * c1 / c2) = c2 / (c1 * r ^ 3 + c2 * r2 ^ 3) := by
        field_simp; ring
      rw [e1, e3]
      have : 0 < c1 * r ^ 3 + c2 * r2 ^ 3 := by positivity
      field_simp
      try ring

/-- what Mie's integral is assumed to do: finite results for finite intensities -/
def IntegFinite (E : Ext) : Prop :=
  ∀ (I1 I2 : ℕ → ℝ) d num ang k p0 p1, ∃ s : ℝ, (E.integ (fun i => fin (I1 i)) (fun i => fin (I2 i)) d num ang k p0 p1).1 = fin s

/-- both models use the same cross section -/
theorem agree_core (E : Ext) (hE : IntegFinite E) {a : Reflection.Args} {mc : CalcScat.Args} {neff : ℂ}
    (hs : SameSample a mc neff) (hw : 0 < a.wavelen)
    (hneff : a.effective_medium_struct = true → E.neff a.n_particle a.n_matrix (vfArray a.volume_fraction a.radius) = .ok neff)
    (hconc : a.concentration = none → a.form_type ≠ some "polydisperse" ∧
      ∀ c : DcsCall, E.dcs { c with concentration := none } = E.dcs { c with concentration := some (1, 0) })
    {o : ReflOut} (ho : Reflection.reflection E a = .ok o) {p : Fin mc.num_angles → XF} {mus : List XF} {mua : XF}
    (hm : mcScat E mc = .ok (p, mus, mua)) :
    ∃ (n : ℂ) (xe : Option (List ℂ)) (f : ℝ → ℝ × ℝ) (s : ℝ),
      n = (if a.effective_medium_form then neff else a.n_matrix) ∧ sampleOf E a = .ok (n, xe) ∧ E.dcs (dcsCall a n xe) = .ok f ∧
      (n.im ≠ 0 → atSurface a (total E a n f) = .ok (fin s)) ∧
      mus = [CalcScat.densityOf mc * fin s] ∧ mua = fin (4 * Real.pi * n.im) / fin a.wavelen ∧
      (∀ k, p k = fin ((f (Reflection.anglesTot a k)).1 + (f (Reflection.anglesTot a k)).2) /
        fin (∑ i : Fin mc.num_angles, ((f (Reflection.anglesTot a i)).1 + (f (Reflection.anglesTot a i)).2))) ∧
      ∀ g l : ℝ, o.asymmetry = fin g → o.transport_length = fin l → s ≠ 0 ∧ rhoOf a ≠ 0 ∧ l * (1 - g) * (rhoOf a * s) = 1 := by
  obtain ⟨_, n, xe, f, hsn, hf, cs, htl, habs, htr⟩ := reflection_inv ho
  obtain ⟨n', xe', ft, st, cs', hsn', htypes, hpf, hmua, hmus⟩ := calcScat_inv hm
  have hfr : ¬ 0 < mc.fine_roughness := by rw [hs.smooth]; exact lt_irrefl _
  have hmus' : mus = [(Init.muScatAbs (CalcScat.densityOf mc) cs' n'.im mc.wavelen).1] := by
    rcases hmus with h | h
    · exact h.2
    · exact absurd h.1 hfr
  -- the same index and effective size parameters
  have hnn : n' = n ∧ xe' = xe ∧ (if mc.effective_medium_form then mc.n_sample else mc.n_matrix.getD 0) = n ∧
      n = (if a.effective_medium_form then neff else a.n_matrix) := by
    unfold CalcScat.sampleFor at hsn'
    unfold sampleOf at hsn
    rw [hs.effective_form, hs.effective_struct, hs.n_sample, hs.n_matrix, hs.wavelen, hs.radius] at hsn'
    rw [hs.effective_form, hs.n_sample, hs.n_matrix]
    cases hst : a.effective_medium_struct
    · rw [hst] at hsn hsn'
      cases hfo : a.effective_medium_form
      · rw [hfo] at hsn hsn'
        simp at hsn hsn'
        exact ⟨by rw [← hsn'.1, ← hsn.1], by rw [← hsn'.2, ← hsn.2], by simp [hsn.1], by simp [hsn.1]⟩
      · rw [hfo] at hsn
        simp at hsn
    · rw [hst, hneff hst] at hsn
      rw [hst] at hsn'
      cases hfo : a.effective_medium_form
      · rw [hfo] at hsn hsn'
        simp [bind, Except.bind, pure, Except.pure] at hsn hsn'
        exact ⟨by rw [← hsn'.1, ← hsn.1], by rw [← hsn'.2, ← hsn.2], by simp [hsn.1], by simp [hsn.1]⟩
      · rw [hfo] at hsn hsn'
        simp [bind, Except.bind, pure, Except.pure] at hsn hsn'
        exact ⟨by rw [← hsn'.1, ← hsn.1], by rw [← hsn'.2, ← hsn.2], by simp [hsn.1], by simp [hsn.1]⟩
  obtain ⟨rfl, rfl, hk, hnv⟩ := hnn
  -- the same types
  have hty : ft = a.form_type ∧ st = a.structure_type := by
    unfold CalcScat.typesFor at htypes
    rcases hs.types with ⟨h1, h2, h3⟩ | ⟨h1, h2, h3, h4⟩
    · rw [h1] at htypes
      simp at htypes
      exact ⟨by rw [← htypes.1, h2], by rw [← htypes.2, h3]⟩
    · rw [h1, if_pos rfl] at htypes
      split_ifs at htypes
      simp only [Except.ok.injEq, Prod.mk.injEq] at htypes
      refine ⟨by rw [← htypes.1, h3], ?_⟩
      rw [← htypes.2, h4]
  obtain ⟨rfl, rfl⟩ := hty
  -- the same differential cross sections
  have er2 : CalcScat.radius2Of mc = Reflection.radius2Of a := by
    rw [CalcScat.radius2Of, hs.radius2, hs.radius]; rfl
  have hcall : E.dcs (ofPhase mc (CalcScat.mainCall mc n' xe' a.form_type a.structure_type)) = .ok f := by
    have hd : CalcScat.distanceOf (CalcScat.mainCall mc n' xe' a.form_type a.structure_type) = Reflection.distanceOf a := by
      simp only [CalcScat.distanceOf, CalcScat.mainCall, CalcScat.diametersOf, Reflection.distanceOf, hs.radius, er2]
    have key : ofPhase mc (CalcScat.mainCall mc n' xe' a.form_type a.structure_type) =
        { dcsCall a n' xe' with concentration := some (a.concentration.getD (1, 0)) } := by
      unfold ofPhase
      rw [hd]
      simp only [CalcScat.mainCall, CalcScat.diametersOf, CalcScat.concentrationOf, dcsCall, hs.radius, er2, hs.n_particle,
        hs.wavelen, hs.volume_fraction, hs.concentration, hs.pdi, hs.fields]
    rw [key, ← hf]
    cases hc : a.concentration with
    | none =>
      have := (hconc hc).2 (dcsCall a n' xe')
      simp only [Option.getD_none]
      rw [← this]
      congr 1
      simp only [dcsCall, hc]
    | some c =>
      congr 1
      simp only [dcsCall, hc, Option.getD_some]
  have hgrid : CalcScat.thetas mc = Reflection.anglesTot a := by
    funext i
    simp only [CalcScat.thetas, Reflection.anglesTot, hs.min_angle, hs.num_angles, zero_add]
  -- the cross section of the Monte Carlo model
  set c := CalcScat.mainCall mc n' xe' a.form_type a.structure_type with hcdef
  have hcs' : cs' = CalcScat.crossSection
      (fun ds => num (E.integ (fun i => fin (f (Reflection.anglesTot a i)).1) (fun i => fin (f (Reflection.anglesTot a i)).2) (ds.headD 0)
        a.num_angles (Reflection.anglesTot a) (2 * Real.pi * n' / a.wavelen) 0 (2 * Real.pi)).1)
      c a.num_angles (fun i => (f (Reflection.anglesTot a i)).1) (fun i => (f (Reflection.anglesTot a i)).2) (Reflection.anglesTot a) := by
    simp only [CalcScat.phaseFunction, bind, Except.bind, pure, Except.pure] at hpf
    rw [hcall] at hpf
    simp only [Except.ok.injEq, Prod.mk.injEq] at hpf
    rw [← hpf.2, hgrid, hk, hs.num_angles, hs.wavelen]
  have hkc : c.k = 2 * Real.pi * n' / a.wavelen := by
    rw [hcdef]; simp only [CalcScat.mainCall, hs.wavelen]
  have hkim : c.k.im = 2 * Real.pi * n'.im / a.wavelen := by
    rw [hkc, Complex.div_ofReal_im]
    simp [Complex.mul_im]
  have hcart : c.cartesian = false := by rw [hcdef]; exact hs.fields
  have hft : c.form_type = a.form_type := rfl
  have hdi : c.diameters = (a.radius.map (2 * ·), (Reflection.radius2Of a).map (2 * ·)) := by
    rw [hcdef]; simp only [CalcScat.mainCall, CalcScat.diametersOf, hs.radius, er2]
  have hcs : cs = fin cs' := by
    by_cases him : n'.im = 0
    · rw [htr him, hcs']
      have hki : ¬ 0 < |c.k.im| := by rw [hkim, him]; simp
      have hnorm : ‖c.k‖ = |2 * Real.pi * n'.re / a.wavelen| := by
        have : c.k = ((2 * Real.pi * n'.re / a.wavelen : ℝ) : ℂ) := by
          rw [hkc]
          apply Complex.ext
          · rw [Complex.div_ofReal_re]; simp [Complex.mul_re]
          · rw [Complex.div_ofReal_im]; simp [Complex.mul_im, him]
        rw [this, Complex.norm_real, Real.norm_eq_abs]
      simp only [CalcScat.crossSection, hcart, Bool.false_eq_true, if_false, hki, hnorm]
      rfl
    · have hat := habs him
      have hki : 0 < |c.k.im| := by
        rw [hkim]
        have := Real.pi_pos
        exact abs_pos.mpr (div_ne_zero (mul_ne_zero (by positivity) him) hw.ne')
      rw [hcs']
      simp only [CalcScat.crossSection, hcart, Bool.false_eq_true, if_false, hki, if_true, hft, hdi, CalcScat.distanceOf]
      unfold atSurface at hat
      have hnum : ∀ d, fin (num (total E a n' f d)) = total E a n' f d := by
        intro d
        obtain ⟨s, hs'⟩ := hE (fun i => (f (Reflection.anglesTot a i)).1) (fun i => (f (Reflection.anglesTot a i)).2) d a.num_angles
          (Reflection.anglesTot a) (2 * Real.pi * n' / a.wavelen) 0 (2 * Real.pi)
        unfold total
        rw [hs']
        rfl
      by_cases hpoly : a.form_type = some "polydisperse"
      · rw [if_pos hpoly] at hat
        cases hc : a.concentration with
        | none => exact absurd hpoly (hconc hc).1
        | some cc =>
          rw [hc] at hat
          simp only [Except.ok.injEq] at hat
          have hcc : c.concentration = cc := by
            rw [hcdef]; simp only [CalcScat.mainCall, CalcScat.concentrationOf, hs.concentration, hc, Option.getD_some]
          rw [if_pos hpoly, hcc, ← hat, ← hnum (CalcScat.outer (a.radius.map _) / 2),
            ← hnum (CalcScat.outer ((Reflection.radius2Of a).map _) / 2)]
          rfl
      · rw [if_neg hpoly] at hat
        simp only [Except.ok.injEq] at hat
        rw [if_neg hpoly, if_neg hpoly, ← hat, ← hnum]
        rfl
  -- conclude
  refine ⟨n', xe', f, cs', hnv, hsn, hf, fun h => by rw [habs h, hcs], ?_, ?_, ?_, ?_⟩
  · rw [hmus']; rfl
  · simp only at hmua
    rw [hmua, hs.wavelen]; rfl
  · intro k
    simp only [CalcScat.phaseFunction, bind, Except.bind, pure, Except.pure] at hpf
    rw [hcall] at hpf
    simp only [Except.ok.injEq, Prod.mk.injEq] at hpf
    rw [← hpf.1, hgrid]
    rfl
  · intro g l hg hl
    rw [hl, hg, hcs, fin_sub] at htl
    obtain ⟨x1, e1, hcs0, hl1⟩ := div_eq_fin htl.symm
    obtain ⟨x2, e2, hr0, hl2⟩ := div_eq_fin e1
    obtain ⟨x3, e3, hg0, hl3⟩ := div_eq_fin e2
    refine ⟨hcs0, hr0, ?_⟩
    rw [hl1, hl2, hl3, ← (fin_inj _ _).mp e3]
    field_simp

/-- C121.  For one sample described to both models, whenever both calls succeed and the single-scattering model returns a finite asymmetry
parameter `g` and transport length `l`, the Monte Carlo model's scattering coefficient is the inverse of `l (1 - g)`: the two models
scatter alike, absorbing or not, monodisperse or not, with whichever effective medium is asked for.  The differential cross sections may be
any function of the arguments, except that a missing concentration must not matter (`hconc`; it matters for polydisperse factors only, and
they refuse it). -/
theorem C121_models_agree_partial (E : Ext) (hE : IntegFinite E) {a : Reflection.Args} {mc : CalcScat.Args} {neff : ℂ}
    (hs : SameSample a mc neff) (ha : Sensible a)
    (hneff : a.effective_medium_struct = true → E.neff a.n_particle a.n_matrix (vfArray a.volume_fraction a.radius) = .ok neff)
    (hconc : a.concentration = none → a.form_type ≠ some "polydisperse" ∧
      ∀ c : DcsCall, E.dcs { c with concentration := none } = E.dcs { c with concentration := some (1, 0) })
    {o : ReflOut} (ho : Reflection.reflection E a = .ok o) {p : Fin mc.num_angles → XF} {mus : List XF} {mua : XF}
    (hm : mcScat E mc = .ok (p, mus, mua)) {g l : ℝ} (hg : o.asymmetry = fin g) (hl : o.transport_length = fin l) :
    ∃ ms : ℝ, mus = [fin ms] ∧ l * (1 - g) * ms = 1 := by
  obtain ⟨n, xe, f, s, _, _, _, _, hmus, _, _, hfin⟩ := agree_core E hE hs ha.wavelen hneff hconc ho hm
  obtain ⟨hdens, hrho⟩ := density_agree hs ha
  exact ⟨rhoOf a * s, by rw [hmus, hdens, fin_mul], (hfin g l hg hl).2.2⟩

/-- C121 is FALSE of a sample that consists of the second species only (concentrations `[0, c]`) when the radii differ: `reflection` takes
the number density from the first radius, `calc_scat` from the second, and the scattering coefficients differ by the ratio of the volumes. -/
theorem C121_second_species_refuted (E : Ext) (hE : IntegFinite E) {a : Reflection.Args} {mc : CalcScat.Args} {neff : ℂ}
    (hs : SameSample a mc neff) (hw : 0 < a.wavelen) {c : ℝ} (hc : 0 < c) (hconc : a.concentration = some (0, c))
    (hr : 0 < CalcScat.outer a.radius) (hr2 : 0 < CalcScat.outer (a.radius2.getD a.radius)) (hphi : 0 < a.volume_fraction)
    (hneff : a.effective_medium_struct = true → E.neff a.n_particle a.n_matrix (vfArray a.volume_fraction a.radius) = .ok neff)
    {o : ReflOut} (ho : Reflection.reflection E a = .ok o) {p : Fin mc.num_angles → XF} {mus : List XF} {mua : XF}
    (hm : mcScat E mc = .ok (p, mus, mua)) {g l : ℝ} (hg : o.asymmetry = fin g) (hl : o.transport_length = fin l) :
    ∃ ms : ℝ, mus = [fin ms] ∧
      l * (1 - g) * ms = (CalcScat.outer a.radius / CalcScat.outer (a.radius2.getD a.radius)) ^ 3 := by
  obtain ⟨n, xe, f, s, _, _, _, _, hmus, _, _, hfin⟩ := agree_core E hE hs hw hneff (by rw [hconc]; exact fun h => (nomatch h)) ho hm
  have hpi := Real.pi_pos
  have e2 : CalcScat.radius2Of mc = a.radius2.getD a.radius := by
    rw [CalcScat.radius2Of, hs.radius2, hs.radius]
  have hd : CalcScat.densityOf mc = fin (a.volume_fraction / ballVolume (CalcScat.outer (a.radius2.getD a.radius))) := by
    unfold CalcScat.densityOf CalcScat.concentrationOf
    rw [e2, hs.radius, hs.concentration, hs.volume_fraction, hconc]
    simp only [Option.getD_some]
    rw [numberDensity_eq hr hr2 le_rfl hc.le (by linarith)]
    rw [fin_inj, zero_mul, zero_add, zero_add, mul_comm c, mul_div_mul_right _ _ hc.ne']
  have hrho : rhoOf a = a.volume_fraction / ballVolume (CalcScat.outer a.radius) := by
    unfold rhoOf SingleScat.rho
    rw [hconc]
    simp only [true_or, if_true, SingleScat.numberDensity, ballVolume]
    field_simp
    try ring
  have h3 := (hfin g l hg hl).2.2
  refine ⟨a.volume_fraction / ballVolume (CalcScat.outer (a.radius2.getD a.radius)) * s, by rw [hmus, hd, fin_mul], ?_⟩
  rw [hrho] at h3
  set r := CalcScat.outer a.radius
  set r2 := CalcScat.outer (a.radius2.getD a.radius)
  have e : a.volume_fraction / ballVolume r2 = a.volume_fraction / ballVolume r * (r / r2) ^ 3 := by
    unfold ballVolume; field_simp
  calc l * (1 - g) * (a.volume_fraction / ballVolume r2 * s)
      = l * (1 - g) * (a.volume_fraction / ballVolume r * s) * (r / r2) ^ 3 := by rw [e]; ring
    _ = _ := by rw [h3, one_mul]

/-! ### Non-vacuity of C121 -/

/-- isotropic scattering, effective index 1 -/
noncomputable def demoExt : Ext :=
  { neff := fun _ _ _ => .ok 1, dcs := fun _ => .ok fun _ => (1, 1), cabs := fun _ _ _ => 0
    integ := fun _ _ _ _ _ _ _ _ => (fin 0, fin 0, fin 0) }

/-- a sample for the examples -/
noncomputable def demoRefl : Reflection.Args :=
  { n_particle := [3 / 2], n_matrix := 1, n_medium := 1, wavelen := 2 * Real.pi, radius := [1], volume_fraction := 1 / 2
    radius2 := none, concentration := none, pdi := none, thickness := none, theta_min := Real.pi / 2, theta_max := Real.pi
    phi_min := 0, phi_max := 2 * Real.pi, incident := 0, num_angles := 3, small_angle := 0, structure_type := .str "glass"
    form_type := some "sphere", effective_medium_struct := true, effective_medium_form := true }

/-- the same sample for the Monte Carlo model -/
noncomputable def demoMC : CalcScat.Args :=
  { demoScat with radius := [1], n_sample := 1, wavelen := 2 * Real.pi, min_angle := 0, num_angles := 3 }

theorem demo_runs (r2 : Option (List ℝ)) (c : Option (ℝ × ℝ))
    (hrho : 0 < rhoOf { demoRefl with radius2 := r2, concentration := c }) :
    ∃ o p mus mua g l, IntegFinite demoExt ∧
      SameSample { demoRefl with radius2 := r2, concentration := c } { demoMC with radius2 := r2, concentration := c } 1 ∧
      Reflection.reflection demoExt { demoRefl with radius2 := r2, concentration := c } = .ok o ∧
      mcScat demoExt { demoMC with radius2 := r2, concentration := c } = .ok (p, mus, mua) ∧
      o.asymmetry = fin g ∧ o.transport_length = fin l := by
  have hπ := Real.pi_pos
  set a : Reflection.Args := { demoRefl with radius2 := r2, concentration := c } with ha
  have hv : Valid { exampleSample with rho := rhoOf a, cabs := 0 } := by
    have h := exampleSample_valid
    exact ⟨h.medium, h.sample, h.inc0, h.inc1, h.tmin, h.tmm, h.tmax, h.azi, h.sm0, h.sm1, hrho, le_rfl, h.dcs, h.scatters⟩
  obtain ⟨o, g, l, ho, hg, hl, _⟩ := C78_asymmetry _ hv none
  have hk : (2 * Real.pi * 1 / (2 * Real.pi) : ℝ) = 1 := by field_simp
  have e : Reflection.reflection demoExt a =
      SingleScat.reflection { exampleSample with rho := rhoOf a, cabs := 0 } none := by
    have hd : transparent demoExt a 1 (dcsCall a 1 none) (fun _ => (1, 1)) =
        { exampleSample with rho := rhoOf a, cabs := 0 } := by
      simp only [transparent, ha, demoRefl, exampleSample, Complex.one_re, hk]
      rfl
    simp only [Reflection.reflection, sampleOf, demoExt, bind, Except.bind, pure, Except.pure]
    rw [if_neg (by simp [ha, demoRefl])]
    simp only [show a.effective_medium_struct = true from rfl, show a.effective_medium_form = true from rfl, if_true,
      Complex.one_im, abs_zero, lt_irrefl, if_false]
    exact congrArg (fun x => SingleScat.reflection x none) hd
  obtain ⟨r, hr⟩ : ∃ r, mcScat demoExt { demoMC with radius2 := r2, concentration := c } = .ok r := by
    simp only [mcScat, CalcScat.calcScat, CalcScat.sampleFor, CalcScat.typesFor, CalcScat.phaseFunction, demoMC, demoScat, demoExt,
      bind, Except.bind, pure, Except.pure, if_true, lt_irrefl, if_false]
    exact ⟨_, rfl⟩
  refine ⟨o, r.1, r.2.1, r.2.2, g, l, fun _ _ _ _ _ _ _ _ => ⟨0, rfl⟩, ?_, by rw [e]; exact ho, hr, hg, hl⟩
  exact ⟨rfl, rfl, rfl, rfl, rfl, rfl, rfl, rfl, rfl, Or.inl ⟨rfl, rfl, rfl⟩, rfl, rfl, rfl, rfl, rfl, rfl⟩

/-- a case of C121_models_agree_partial: the hypotheses hold together, and the differential cross section does not depend on the
concentration -/
example : (∃ o p mus mua g l, IntegFinite demoExt ∧ SameSample demoRefl demoMC 1 ∧
    Reflection.reflection demoExt demoRefl = .ok o ∧ mcScat demoExt demoMC = .ok (p, mus, mua) ∧
    o.asymmetry = fin g ∧ o.transport_length = fin l) ∧ Sensible demoRefl := by
  have hπ := Real.pi_pos
  refine ⟨demo_runs none none ?_, ?_, ?_, by norm_num [demoRefl], by simp only [demoRefl]; positivity,
    fun c hc => by simp [demoRefl] at hc⟩
  · show (0 : ℝ) < 3 * (1 / 2) / (4 * Real.pi * (max 1 0) ^ 3)
    rw [max_eq_left zero_le_one]; positivity
  · simp [demoRefl, CalcScat.outer]
  · simp [demoRefl, CalcScat.outer]

/-- a case of C121_second_species_refuted: radii 1 and 2, only the second present -/
example : ∃ o p mus mua g l, IntegFinite demoExt ∧
      SameSample { demoRefl with radius2 := some [2], concentration := some (0, 1) }
        { demoMC with radius2 := some [2], concentration := some (0, 1) } 1 ∧
      Reflection.reflection demoExt { demoRefl with radius2 := some [2], concentration := some (0, 1) } = .ok o ∧
      mcScat demoExt { demoMC with radius2 := some [2], concentration := some (0, 1) } = .ok (p, mus, mua) ∧
      o.asymmetry = fin g ∧ o.transport_length = fin l := by
  have hπ := Real.pi_pos
  refine demo_runs (some [2]) (some (0, 1)) ?_
  have : rhoOf { demoRefl with radius2 := some [2], concentration := some (0, 1) } = 3 * (1 / 2) / (4 * Real.pi * (max 1 0) ^ 3) := by
    simp [rhoOf, SingleScat.rho, SingleScat.numberDensity, demoRefl, CalcScat.outer]
  rw [this, max_eq_left zero_le_one]; positivity

/-! ## C122 -/

/-- What is assumed of pymie's `integrate_intensity_complex_medium` on a grid of increasing angles: each of its results is a quadrature
with non-negative weights of the intensities it is given. -/
def IntegPositive (E : Ext) : Prop :=
  ∀ (d : ℝ) (num : ℕ) (ang : ℕ → ℝ) (k : ℂ) (p0 p1 : ℝ), p0 ≤ p1 → (∀ i, i + 1 < num → ang i ≤ ang (i + 1)) →
    ∃ u v u' v' : ℕ → ℝ, (∀ i, 0 ≤ u i ∧ 0 ≤ v i ∧ 0 ≤ u' i ∧ 0 ≤ v' i) ∧ ∀ I1 I2 : ℕ → XF, ∀ J1 J2 : ℕ → ℝ,
      (∀ i < num, I1 i = fin (J1 i) ∧ I2 i = fin (J2 i)) →
      E.integ I1 I2 d num ang k p0 p1 =
        (fin (∑ i ∈ Finset.range num, (u i * J1 i + v i * J2 i)), fin (∑ i ∈ Finset.range num, u' i * J1 i),
          fin (∑ i ∈ Finset.range num, v' i * J2 i))

/-- a detector in the backward half space, light from the medium, an absorbing sample that absorbs less than it refracts -/
structure AbsValid (a : Reflection.Args) (n : ℂ) : Prop where
  re : 0 < n.re
  im : 0 < n.im
  imre : n.im ≤ n.re
  medium : 0 < a.n_medium
  inc0 : 0 ≤ a.incident
  inc1 : a.incident ≤ Real.pi / 2
  tmin : Real.pi / 2 ≤ a.theta_min
  tmm : a.theta_min ≤ a.theta_max
  tmax : a.theta_max ≤ Real.pi
  azi : a.phi_min ≤ a.phi_max
  sm0 : 0 ≤ a.small_angle
  sm1 : a.small_angle ≤ Real.pi

private theorem fresnelT {m : ℕ} {n1 n2 : ℂ} {θ : Fin m → ℝ} {rp rs : Fin m → ℝ}
    (h : Fresnel.fresnelReflectionC n1 n2 θ = .ok (fun i => fin (rp i), fun i => fin (rs i))) :
    Fresnel.fresnelTransmissionC n1 n2 θ = .ok (fun i => fin (1 - rp i), fun i => fin (1 - rs i)) := by
  simp only [Fresnel.fresnelTransmissionC, h, bind, Except.bind, pure, Except.pure, fin_sub]

/-- what `reflection` computes for an absorbing sample -/
private theorem absorbing_eq (E : Ext) (hE : IntegPositive E) {a : Reflection.Args} {n : ℂ} (h : AbsValid a n) {f : ℝ → ℝ × ℝ}
    (hf : ∀ t, 0 ≤ (f t).1 ∧ 0 ≤ (f t).2) (hc : ∀ c, a.concentration = some c → 0 ≤ c.1 ∧ 0 ≤ c.2)
    (hpoly : a.form_type = some "polydisperse" → a.concentration ≠ none) :
    ∃ rp rs dp ds s A : ℝ, Spec.IsFraction rp ∧ Spec.IsFraction rs ∧ 0 ≤ dp ∧ 0 ≤ ds ∧ 0 ≤ s ∧ |A| ≤ s ∧
      Fresnel.fresnelReflectionC a.n_medium n (fun _ : Fin 1 => a.incident) = .ok (fun _ => fin rp, fun _ => fin rs) ∧
      atSurface a (total E a n f) = .ok (fin s) ∧ atSurface a (asymmetry E a n f) = .ok (fin A) ∧
      ∀ th, absorbing E { a with thickness := th } n f =
        let cext := fin s + fin (4 * Real.pi * n.im / a.wavelen) / fin (rhoOf a)
        let factor := match th with
          | none => fin 1
          | some L => (fin 1 - xexp (fin (-rhoOf a) * cext * fin L)) * fin s / cext
        let par := fin (1 - rp) * fin dp / cext * factor + fin rp
        let perp := fin (1 - rs) * fin ds / cext * factor + fin rs
        .ok { reflectance := (par + perp) / fin 2, par := par, perp := perp, asymmetry := fin A / fin s
              transport_length := fin 1 / (fin 1 - fin A / fin s) / fin (rhoOf a) / fin s } := by
  have hπ := Real.pi_pos
  have hn : 0 < ‖n‖ := norm_pos_iff.mpr (by rintro rfl; simpa using h.re)
  -- the grids
  have m0 := thetaRefracted_mem h.medium hn h.tmin (h.tmm.trans h.tmax)
  have m1 := thetaRefracted_mem h.medium hn (h.tmin.trans h.tmm) h.tmax
  have mm := thetaRefracted_mono h.medium hn h.tmin h.tmm h.tmax
  have hdet : ∀ i < a.num_angles, Real.pi / 2 ≤ anglesDet a n i ∧ anglesDet a n i ≤ Real.pi := fun i hi => by
    have := Lemmas.linspace_mem mm a.num_angles i hi
    exact ⟨m0.1.trans this.1, this.2.trans m1.2⟩
  have hdetm : ∀ i, i + 1 < a.num_angles → anglesDet a n i ≤ anglesDet a n (i + 1) := fun i hi =>
    Lemmas.linspace_le mm a.num_angles i hi
  have htotm : ∀ i, i + 1 < a.num_angles → Reflection.anglesTot a i ≤ Reflection.anglesTot a (i + 1) := fun i hi =>
    Lemmas.linspace_le (by linarith [h.sm1]) a.num_angles i hi
  -- Fresnel
  obtain ⟨rp, rs, hr, hrf⟩ := C120_entering_range (fun _ : Fin 1 => a.incident) h.medium h.re
    (by rw [abs_of_pos h.im]; exact h.imre) (fun _ => ⟨h.inc0, h.inc1⟩)
  obtain ⟨qp, qs, hq, hqf⟩ := C120_leaving_range (fun i : Fin a.num_angles => Real.pi - anglesDet a n i) (n2 := a.n_medium) h.re
    (fun i => ⟨by linarith [(hdet i i.2).2], by linarith [(hdet i i.2).1]⟩)
  have hr' : Fresnel.fresnelReflectionC a.n_medium n (fun _ : Fin 1 => a.incident) = .ok (fun _ => fin (rp 0), fun _ => fin (rs 0)) := by
    rw [hr]
    congr 2 <;> (funext i; rw [Subsingleton.elim i 0])
  have hrT := fresnelT hr'
  have hqT := fresnelT hq
  -- the integrals
  let ext : (Fin a.num_angles → XF) → ℕ → XF := fun t i => if h : i < a.num_angles then t ⟨i, h⟩ else fin 0
  let tp := ext fun i => fin (1 - qp i)
  let ts := ext fun i => fin (1 - qs i)
  have key : ∀ d : ℝ, ∃ s A dp ds : ℝ, total E a n f d = fin s ∧ asymmetry E a n f d = fin A ∧
      (detected E a n f tp ts d).2.1 = fin dp ∧ (detected E a n f tp ts d).2.2 = fin ds ∧ 0 ≤ dp ∧ 0 ≤ ds ∧ |A| ≤ s := by
    intro d
    obtain ⟨u, v, u', v', hw, hI⟩ := hE d a.num_angles (Reflection.anglesTot a) (2 * Real.pi * n / a.wavelen) 0 (2 * Real.pi)
      (by positivity) htotm
    obtain ⟨x, y, x', y', hw2, hI2⟩ := hE d a.num_angles (anglesDet a n) (2 * Real.pi * n / a.wavelen) a.phi_min a.phi_max h.azi hdetm
    have e1 := hI (fun i => fin (f (Reflection.anglesTot a i)).1) (fun i => fin (f (Reflection.anglesTot a i)).2) _ _
      (fun i _ => ⟨rfl, rfl⟩)
    have e2 := hI (fun i => fin ((f (Reflection.anglesTot a i)).1 * Real.cos (Reflection.anglesTot a i)))
      (fun i => fin ((f (Reflection.anglesTot a i)).2 * Real.cos (Reflection.anglesTot a i))) _ _ (fun i _ => ⟨rfl, rfl⟩)
    have e3 := hI2 (fun i => fin (f (anglesDet a n i)).1 * tp i) (fun i => fin (f (anglesDet a n i)).2 * ts i)
      (fun i => (f (anglesDet a n i)).1 * if h : i < a.num_angles then 1 - qp ⟨i, h⟩ else 0)
      (fun i => (f (anglesDet a n i)).2 * if h : i < a.num_angles then 1 - qs ⟨i, h⟩ else 0)
      (fun i hi => by simp only [tp, ts, ext, dif_pos hi, fin_mul, and_self])
    refine ⟨_, _, _, _, by unfold total; rw [e1], by unfold asymmetry; rw [e2], by unfold detected; rw [e3],
      by unfold detected; rw [e3], ?_, ?_, ?_⟩
    · refine Finset.sum_nonneg fun i hi => mul_nonneg (hw2 i).2.2.1 (mul_nonneg (hf _).1 ?_)
      rw [dif_pos (Finset.mem_range.mp hi)]
      linarith [(hqf ⟨i, Finset.mem_range.mp hi⟩).1.2]
    · refine Finset.sum_nonneg fun i hi => mul_nonneg (hw2 i).2.2.2 (mul_nonneg (hf _).2 ?_)
      rw [dif_pos (Finset.mem_range.mp hi)]
      linarith [(hqf ⟨i, Finset.mem_range.mp hi⟩).2.2]
    · refine (Finset.abs_sum_le_sum_abs _ _).trans (Finset.sum_le_sum fun i _ => ?_)
      have hcos : |Real.cos (Reflection.anglesTot a i)| ≤ 1 := Real.abs_cos_le_one _
      have h1 := mul_nonneg (hw i).1 (hf (Reflection.anglesTot a i)).1
      have h2 := mul_nonneg (hw i).2.1 (hf (Reflection.anglesTot a i)).2
      have e : u i * ((f (Reflection.anglesTot a i)).1 * Real.cos (Reflection.anglesTot a i)) +
          v i * ((f (Reflection.anglesTot a i)).2 * Real.cos (Reflection.anglesTot a i)) =
          (u i * (f (Reflection.anglesTot a i)).1 + v i * (f (Reflection.anglesTot a i)).2) * Real.cos (Reflection.anglesTot a i) := by ring
      rw [e, abs_mul, abs_of_nonneg (add_nonneg h1 h2)]
      exact mul_le_of_le_one_right (add_nonneg h1 h2) hcos
  obtain ⟨s, A, dp, ds, hs, hA, hdp, hds, hdp0, hds0, hAs⟩ : ∃ s A dp ds : ℝ, atSurface a (total E a n f) = .ok (fin s) ∧
      atSurface a (asymmetry E a n f) = .ok (fin A) ∧ atSurface a (fun d => (detected E a n f tp ts d).2.1) = .ok (fin dp) ∧
      atSurface a (fun d => (detected E a n f tp ts d).2.2) = .ok (fin ds) ∧ 0 ≤ dp ∧ 0 ≤ ds ∧ |A| ≤ s := by
    unfold atSurface
    by_cases hp : a.form_type = some "polydisperse"
    · cases hcc : a.concentration with
      | none => exact absurd hcc (hpoly hp)
      | some c =>
        obtain ⟨s1, A1, dp1, ds1, h1, h2, h3, h4, h5, h6, h7⟩ := key (CalcScat.outer (a.radius.map (2 * ·)) / 2)
        obtain ⟨s2, A2, dp2, ds2, k1, k2, k3, k4, k5, k6, k7⟩ := key (CalcScat.outer ((Reflection.radius2Of a).map (2 * ·)) / 2)
        obtain ⟨c1, c2⟩ := hc c hcc
        refine ⟨s1 * c.1 + s2 * c.2, A1 * c.1 + A2 * c.2, dp1 * c.1 + dp2 * c.2, ds1 * c.1 + ds2 * c.2, ?_, ?_, ?_, ?_, by positivity,
          by positivity, ?_⟩
        · simp only [if_pos hp, h1, k1, fin_mul, fin_add]
        · simp only [if_pos hp, h2, k2, fin_mul, fin_add]
        · simp only [if_pos hp, h3, k3, fin_mul, fin_add]
        · simp only [if_pos hp, h4, k4, fin_mul, fin_add]
        · rw [abs_le] at *
          constructor <;> nlinarith
    · obtain ⟨s, A, dp, ds, h1, h2, h3, h4, h5, h6, h7⟩ := key
        (max (CalcScat.outer (a.radius.map (2 * ·))) (CalcScat.outer ((Reflection.radius2Of a).map (2 * ·))) / 2)
      exact ⟨s, A, dp, ds, by simp only [if_neg hp, h1], by simp only [if_neg hp, h2], by simp only [if_neg hp, h3],
        by simp only [if_neg hp, h4], h5, h6, h7⟩
  refine ⟨rp 0, rs 0, dp, ds, s, A, (hrf 0).1, (hrf 0).2, hdp0, hds0, (abs_nonneg A).trans hAs, hAs, hr', hs, hA, fun th => ?_⟩
  unfold absorbing
  have g1 : Fresnel.fresnelTransmissionC (n := { a with thickness := th }.num_angles) n a.n_medium
      (fun i => Real.pi - anglesDet { a with thickness := th } n i) = .ok (fun i => fin (1 - qp i), fun i => fin (1 - qs i)) := hqT
  have g2 : atSurface { a with thickness := th } (total E { a with thickness := th } n f) = .ok (fin s) := hs
  have g3 : atSurface { a with thickness := th } (asymmetry E { a with thickness := th } n f) = .ok (fin A) := hA
  have g4 : atSurface { a with thickness := th } (fun d => (detected E { a with thickness := th } n f
      (fun i => if h : i < a.num_angles then fin (1 - qp ⟨i, h⟩) else fin 0)
      (fun i => if h : i < a.num_angles then fin (1 - qs ⟨i, h⟩) else fin 0) d).2.1) = .ok (fin dp) := hdp
  have g5 : atSurface { a with thickness := th } (fun d => (detected E { a with thickness := th } n f
      (fun i => if h : i < a.num_angles then fin (1 - qp ⟨i, h⟩) else fin 0)
      (fun i => if h : i < a.num_angles then fin (1 - qs ⟨i, h⟩) else fin 0) d).2.2) = .ok (fin ds) := hds
  simp only [bind, Except.bind, hrT, hr', g1, g2, g3, g4, g5]
  rfl

/-- C122.  An absorbing sample described to both models (index `n`, with `0 < Im n ≤ Re n`), semi-infinite in `reflection`, which returns a
finite asymmetry parameter `g` and transport length `l`.  Then a film of thickness `L` of it reflects, in each polarisation, the Fresnel
reflection of the front plus a share `(1 - exp(-(μs + μa) L)) μs/(μs + μa)` of what the semi-infinite sample adds to it, where `μs` and
`μa = 4π Im n / wavelen` are the coefficients the Monte Carlo model uses for the sample; all these numbers are finite, the film reflects
at least its Fresnel reflection and no more than the semi-infinite sample; `g` is between -1 and 1, `l` is at least half the scattering
length, and neither depends on the thickness. -/
theorem C122_absorbing_film (E : Ext) (hE : IntegFinite E) (hE' : IntegPositive E) {a : Reflection.Args} {mc : CalcScat.Args} {neff n : ℂ}
    (hs : SameSample a mc neff) (ha : Sensible a) (hth : a.thickness = none)
    (hn : n = if a.effective_medium_form then neff else a.n_matrix) (hv : AbsValid a n)
    (hdcs : ∀ c f, E.dcs c = .ok f → ∀ t, 0 ≤ (f t).1 ∧ 0 ≤ (f t).2)
    (hneff : a.effective_medium_struct = true → E.neff a.n_particle a.n_matrix (vfArray a.volume_fraction a.radius) = .ok neff)
    (hconc : a.concentration = none → a.form_type ≠ some "polydisperse" ∧
      ∀ c : DcsCall, E.dcs { c with concentration := none } = E.dcs { c with concentration := some (1, 0) })
    {o : ReflOut} (ho : Reflection.reflection E a = .ok o) {p : Fin mc.num_angles → XF} {mus : List XF} {mua : XF}
    (hm : mcScat E mc = .ok (p, mus, mua)) {g l : ℝ} (hg : o.asymmetry = fin g) (hl : o.transport_length = fin l)
    {L : ℝ} (hL : 0 ≤ L) :
    ∃ (oL : ReflOut) (μs μa rp rs P S PL SL : ℝ),
      Reflection.reflection E { a with thickness := some L } = .ok oL ∧ mus = [fin μs] ∧ mua = fin μa ∧ 0 < μs ∧
      μa = 4 * Real.pi * n.im / a.wavelen ∧
      Fresnel.fresnelReflectionC a.n_medium n (fun _ : Fin 1 => a.incident) = .ok (fun _ => fin rp, fun _ => fin rs) ∧
      o.par = fin P ∧ o.perp = fin S ∧ o.reflectance = fin ((P + S) / 2) ∧
      oL.par = fin PL ∧ oL.perp = fin SL ∧ oL.reflectance = fin ((PL + SL) / 2) ∧
      PL - rp = (P - rp) * ((1 - Real.exp (-(μs + μa) * L)) * μs / (μs + μa)) ∧
      SL - rs = (S - rs) * ((1 - Real.exp (-(μs + μa) * L)) * μs / (μs + μa)) ∧
      0 ≤ rp ∧ rp ≤ PL ∧ PL ≤ P ∧ 0 ≤ rs ∧ rs ≤ SL ∧ SL ≤ S ∧
      -1 ≤ g ∧ g ≤ 1 ∧ 1 / μs / 2 ≤ l ∧ oL.asymmetry = fin g ∧ oL.transport_length = fin l := by
  obtain ⟨n', xe, f, s, hn', hsn, hf, hat, hmus, hmua, _, hfin⟩ := agree_core E hE hs ha.wavelen hneff hconc ho hm
  obtain ⟨hdens, hrho⟩ := density_agree hs ha
  have hnn : n' = n := by rw [hn', hn]
  subst hnn
  obtain ⟨hs0, _, hlg⟩ := hfin g l hg hl
  have hπ := Real.pi_pos
  have hw := ha.wavelen
  have him := hv.im
  obtain ⟨rp, rs, dp, ds, s', A, hrp, hrs, hdp, hds, hs'0, hAs, hFr, hat', _, hout⟩ :=
    absorbing_eq E hE' hv (hdcs _ _ hf) (fun c hc => ⟨(ha.conc c hc).1, (ha.conc c hc).2.1⟩) (fun h hc => (hconc hc).1 h)
  have hss : s' = s := by
    have h1 := hat him.ne'
    rw [hat'] at h1
    simpa using h1
  subst hss
  have hspos : 0 < s' := lt_of_le_of_ne hs'0 (Ne.symm hs0)
  have hlen : ¬ a.n_particle.length ≠ a.radius.length := by
    have := (reflection_inv ho).1; simpa using this
  have hunf : ∀ th, Reflection.reflection E { a with thickness := th } = absorbing E { a with thickness := th } n' f := by
    intro th
    have h1 : sampleOf E { a with thickness := th } = .ok (n', xe) := hsn
    have h2 : E.dcs (dcsCall { a with thickness := th } n' xe) = .ok f := hf
    unfold Reflection.reflection
    rw [if_neg hlen, h1]
    simp only [bind, Except.bind, h2]
    rw [if_pos (abs_pos.mpr him.ne')]
  have hanone : { a with thickness := none } = a := by
    cases a; simp only [Reflection.Args.mk.injEq, true_and, and_true]; exact hth.symm
  set μs := rhoOf a * s' with hμs
  set μa := 4 * Real.pi * n'.im / a.wavelen with hμa
  have hμs0 : 0 < μs := mul_pos hrho hspos
  have hμa0 : 0 < μa := by rw [hμa]; positivity
  have hcext0 : 0 < s' + μa / rhoOf a := by positivity
  have hA : fin A / fin s' = (fin (A / s') : XF) := fin_div _ hspos.ne'
  have h0 := hout none
  have h1 := hout (some L)
  rw [← hunf, hanone, ho] at h0
  rw [← hunf] at h1
  simp only [hA, fin_div _ hrho.ne', fin_add, fin_mul, fin_div _ hcext0.ne', fin_sub, xexp] at h0 h1
  simp only [Except.ok.injEq] at h0
  have hasy : A / s' = g := by
    rw [h0] at hg; exact (fin_inj _ _).mp hg
  have htl : fin 1 / fin (1 - A / s') / fin (rhoOf a) / fin s' = (fin l : XF) := by
    rw [h0] at hl; exact hl
  have hexp : -rhoOf a * (s' + μa / rhoOf a) * L = -(μs + μa) * L := by
    rw [hμs]; field_simp
  set w := (1 - Real.exp (-(μs + μa) * L)) * s' / (s' + μa / rhoOf a) with hw'
  have hwm : w = (1 - Real.exp (-(μs + μa) * L)) * μs / (μs + μa) := by
    rw [hw', hμs]; field_simp
  have hw0 : 0 ≤ w := by
    have : Real.exp (-(μs + μa) * L) ≤ 1 := Real.exp_le_one_iff.mpr (by nlinarith)
    rw [hw']
    have : 0 ≤ 1 - Real.exp (-(μs + μa) * L) := by linarith
    positivity
  have hw1 : w ≤ 1 := by
    rw [hwm, div_le_one (by positivity)]
    have := Real.exp_pos (-(μs + μa) * L)
    nlinarith
  have hdp' : 0 ≤ (1 - rp) * dp / (s' + μa / rhoOf a) := by
    have : 0 ≤ 1 - rp := by linarith [hrp.2]
    positivity
  have hds' : 0 ≤ (1 - rs) * ds / (s' + μa / rhoOf a) := by
    have : 0 ≤ 1 - rs := by linarith [hrs.2]
    positivity
  have hg1 : -1 ≤ g ∧ g ≤ 1 := by
    rw [← hasy, le_div_iff₀ hspos, div_le_one hspos]
    rw [abs_le] at hAs
    constructor <;> linarith
  refine ⟨_, μs, μa, rp, rs, (1 - rp) * dp / (s' + μa / rhoOf a) * 1 + rp, (1 - rs) * ds / (s' + μa / rhoOf a) * 1 + rs,
    (1 - rp) * dp / (s' + μa / rhoOf a) * w + rp, (1 - rs) * ds / (s' + μa / rhoOf a) * w + rs, h1, by rw [hmus, hdens, fin_mul],
    ?_, hμs0, rfl, hFr, by rw [h0], by rw [h0], by rw [h0, fin_div _ two_ne_zero], ?_, ?_, ?_, ?_, ?_, hrp.1, ?_, ?_, hrs.1, ?_, ?_,
    hg1.1, hg1.2, ?_, ?_, ?_⟩
  · rw [hmua, fin_div _ hw.ne']
  · simp only [hexp, hw']
  · simp only [hexp, hw']
  · simp only [hexp, hw', fin_div _ (two_ne_zero' ℝ)]
  · rw [← hwm]; ring
  · rw [← hwm]; ring
  · nlinarith
  · nlinarith
  · nlinarith
  · nlinarith
  · have h2 : l * (1 - g) * μs = 1 := hlg
    have hl0 : 0 < l := by
      by_contra hneg
      have : l * (1 - g) ≤ 0 := mul_nonpos_of_nonpos_of_nonneg (not_lt.mp hneg) (by linarith [hg1.2])
      nlinarith
    rw [div_div, div_le_iff₀ (by positivity)]
    nlinarith [mul_nonneg (mul_pos hl0 hμs0).le (by linarith [hg1.1] : 0 ≤ 1 + g)]
  · simp only [hasy]
  · exact htl

/-! ### Non-vacuity of C122 -/

/-- isotropic scattering in an absorbing medium of effective index 5/4 + i/100, every angle with weight one -/
noncomputable def demoAbs : Ext :=
  { neff := fun _ _ _ => .ok ⟨5 / 4, 1 / 100⟩, dcs := fun _ => .ok fun _ => (1, 1), cabs := fun _ _ _ => 0
    integ := fun I1 I2 _ n _ _ _ _ => (fin (∑ i ∈ Finset.range n, (num (I1 i) + num (I2 i))), fin (∑ i ∈ Finset.range n, num (I1 i)),
      fin (∑ i ∈ Finset.range n, num (I2 i))) }

example : ∃ o p mus mua g l, IntegFinite demoAbs ∧ IntegPositive demoAbs ∧
    SameSample demoRefl { demoMC with n_sample := ⟨5 / 4, 1 / 100⟩ } ⟨5 / 4, 1 / 100⟩ ∧ demoRefl.thickness = none ∧
    AbsValid demoRefl ⟨5 / 4, 1 / 100⟩ ∧ Reflection.reflection demoAbs demoRefl = .ok o ∧
    mcScat demoAbs { demoMC with n_sample := ⟨5 / 4, 1 / 100⟩ } = .ok (p, mus, mua) ∧ o.asymmetry = fin g ∧ o.transport_length = fin l := by
  have hπ := Real.pi_pos
  have hfin : IntegFinite demoAbs := fun _ _ _ _ _ _ _ _ => ⟨_, rfl⟩
  have hpos : IntegPositive demoAbs := by
    intro d n ang k p0 p1 _ _
    refine ⟨fun _ => 1, fun _ => 1, fun _ => 1, fun _ => 1, fun _ => by norm_num, fun I1 I2 J1 J2 h => ?_⟩
    have e1 : ∀ i ∈ Finset.range n, num (I1 i) = J1 i := fun i hi => by rw [(h i (Finset.mem_range.mp hi)).1]; rfl
    have e2 : ∀ i ∈ Finset.range n, num (I2 i) = J2 i := fun i hi => by rw [(h i (Finset.mem_range.mp hi)).2]; rfl
    simp only [demoAbs, one_mul]
    rw [Finset.sum_congr rfl e1, Finset.sum_congr rfl e2,
      Finset.sum_congr rfl (fun i hi => by rw [e1 i hi, e2 i hi])]
  have hv : AbsValid demoRefl ⟨5 / 4, 1 / 100⟩ :=
    ⟨by norm_num, by norm_num, by norm_num, one_pos, le_rfl, by simp only [demoRefl]; positivity, le_rfl,
      by simp only [demoRefl]; linarith, le_rfl, by simp only [demoRefl]; positivity, le_rfl, hπ.le⟩
  obtain ⟨rp, rs, dp, ds, s, A, _, _, _, _, _, _, _, hS, hA, hout⟩ := absorbing_eq demoAbs hpos hv (f := fun _ => (1, 1))
    (fun _ => ⟨zero_le_one, zero_le_one⟩) (fun c hc => by simp [demoRefl] at hc) (fun h => by simp [demoRefl] at h)
  have hs6 : s = 6 := by
    simp [atSurface, demoRefl, total, demoAbs, num] at hS
    rw [← hS]; norm_num
  have hA0 : A = 0 := by
    simp [atSurface, demoRefl, asymmetry, demoAbs, num, Reflection.anglesTot, Traj.linspace, Finset.sum_range_succ] at hA
    rw [← hA, show Real.pi / (3 - 1) = Real.pi / 2 by ring, show 2 * (Real.pi / 2) = Real.pi by ring, Real.cos_pi_div_two, Real.cos_pi]
    ring
  have hrho : rhoOf demoRefl ≠ 0 := by
    have : rhoOf demoRefl = 3 * (1 / 2) / (4 * Real.pi * (max 1 0) ^ 3) := rfl
    rw [this, max_eq_left zero_le_one]; positivity
  have h0 := hout none
  have e : Reflection.reflection demoAbs demoRefl = absorbing demoAbs { demoRefl with thickness := none } ⟨5 / 4, 1 / 100⟩ (fun _ => (1, 1)) := by
    simp only [Reflection.reflection, sampleOf, demoAbs, bind, Except.bind, pure, Except.pure]
    rw [if_neg (by simp [demoRefl])]
    simp only [show demoRefl.effective_medium_struct = true from rfl, show demoRefl.effective_medium_form = true from rfl, if_true]
    rw [if_pos (by norm_num)]
    rfl
  obtain ⟨r, hr⟩ : ∃ r, mcScat demoAbs { demoMC with n_sample := ⟨5 / 4, 1 / 100⟩ } = .ok r := by
    simp only [mcScat, CalcScat.calcScat, CalcScat.sampleFor, CalcScat.typesFor, CalcScat.phaseFunction, demoMC, demoScat, demoAbs,
      bind, Except.bind, pure, Except.pure, if_true, lt_irrefl, if_false]
    exact ⟨_, rfl⟩
  refine ⟨_, r.1, r.2.1, r.2.2, 0, 1 / rhoOf demoRefl / 6, hfin, hpos, ?_, rfl, hv, by rw [e]; exact h0, hr, ?_, ?_⟩
  · exact ⟨rfl, rfl, rfl, rfl, rfl, rfl, rfl, rfl, rfl, Or.inl ⟨rfl, rfl, rfl⟩, rfl, rfl, rfl, rfl, rfl, rfl⟩
  · simp only [hs6, hA0, fin_div _ (by norm_num : (6 : ℝ) ≠ 0)]; norm_num
  · simp only [hs6, hA0, fin_div _ (by norm_num : (6 : ℝ) ≠ 0), fin_sub, zero_div, sub_zero, fin_div _ (one_ne_zero' ℝ), div_one,
      fin_div _ hrho]

end Verif.Props
