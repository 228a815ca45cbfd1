import Verif.Props.Fraction
import Verif.Props.Reflection

/-!
# C154: the complete single-scattering model of a transparent film
-/

namespace Verif.Props
noncomputable section
open Verif.Spec Verif.SingleScat Verif.Reflection _root_.Verif.XF
open MeasureTheory Set Filter Topology
open Verif (XF PyErr)

/-! ### Specification -/

/-- The index `n` (no imaginary part) that scattering takes place in, and the size parameters `xe` that the structure factor is computed
with, if they differ: with an effective medium for both, its index; with one for the structure factor only, the index of the matrix; without, the
index of the matrix. -/
inductive ScattersIn (E : Ext) (a : Reflection.Args) (n : ℝ) : Option (List ℂ) → Prop
  | both : a.effective_medium_struct = true → a.effective_medium_form = true →
      E.neff a.n_particle a.n_matrix (vfArray a.volume_fraction a.radius) = .ok n → ScattersIn E a n none
  | struct (ne : ℂ) : a.effective_medium_struct = true → a.effective_medium_form = false → a.n_matrix = n →
      E.neff a.n_particle a.n_matrix (vfArray a.volume_fraction a.radius) = .ok ne →
      ScattersIn E a n (some (a.radius.map fun r : ℝ => 2 * Real.pi * ne / a.wavelen * r))
  | neither : a.effective_medium_struct = false → a.effective_medium_form = false → a.n_matrix = n → ScattersIn E a n none

/-- The scatterers in a medium of index `n`, as described to `differential_cross_section`: index ratio, size parameter and wavevector in that
medium; diameters; and distances at which particles are met: half their diameters, or half the larger one in a sample that is not polydisperse. -/
def scatterers (a : Reflection.Args) (n : ℝ) (xe : Option (List ℂ)) : DcsCall :=
  { m := a.n_particle.map fun np => np / n, x := a.radius.map fun r : ℝ => 2 * Real.pi * (n : ℂ) / a.wavelen * r
    volume_fraction := a.volume_fraction, structure_type := a.structure_type, form_type := a.form_type
    diameters := (a.radius.map (2 * ·), (a.radius2.getD a.radius).map (2 * ·)), concentration := a.concentration, pdi := a.pdi
    wavelen := a.wavelen, n_matrix := n, k := 2 * Real.pi * (n : ℂ) / a.wavelen
    distance := if a.form_type = some "polydisperse"
      then [CalcScat.outer (a.radius.map (2 * ·)) / 2, CalcScat.outer ((a.radius2.getD a.radius).map (2 * ·)) / 2]
      else [max (CalcScat.outer (a.radius.map (2 * ·))) (CalcScat.outer ((a.radius2.getD a.radius).map (2 * ·))) / 2]
    x_eff := xe, cartesian := false }

/-- total scattering cross section of a particle with differential cross section `f` (dimensionless, both polarisations) -/
def sigmaScat (a : Reflection.Args) (n : ℝ) (f : ℝ → ℝ × ℝ) : ℝ :=
  (a.wavelen / n) ^ 2 / (2 * Real.pi) * ∫ α in a.small_angle..Real.pi, ((f α).1 + (f α).2) / 2 * Real.sin α

/-- the part of it, in one polarisation, that is scattered towards the detector and passes the surface -/
def sigmaSeen (a : Reflection.Args) (n : ℝ) (d : ℝ → ℝ) (R : ℝ → ℝ → ℝ → ℝ) : ℝ :=
  (a.wavelen / n) ^ 2 / (2 * Real.pi) * ((a.phi_max - a.phi_min) / (2 * Real.pi)) *
    ∫ α in (insideAngle a.n_medium n a.theta_min)..(insideAngle a.n_medium n a.theta_max), d α * (1 - R n a.n_medium (Real.pi - α)) * Real.sin α

/-- mean cosine of the scattering angle -/
def meanCosine (a : Reflection.Args) (f : ℝ → ℝ × ℝ) : ℝ :=
  (∫ α in a.small_angle..Real.pi, ((f α).1 + (f α).2) / 2 * Real.cos α * Real.sin α) /
    ∫ α in a.small_angle..Real.pi, ((f α).1 + (f α).2) / 2 * Real.sin α

/-- what a film of thickness `th` scatters of what a semi-infinite sample scatters (with the albedo the code multiplies it with, C56), for
`ρ` particles per volume with cross sections `σ` and `σa` -/
def filmShare (ρ σ σa : ℝ) : Option ℝ → ℝ
  | none => 1
  | some L => (1 - Real.exp (-(ρ * (σ + σa) * L))) * (σ / (σ + σa))

/-- Light from the medium, a detector in the backward half space, continuous non-negative differential cross sections, a sample that scatters
and does not amplify. -/
structure FilmAndDetector (a : Reflection.Args) (n σa : ℝ) (f : ℝ → ℝ × ℝ) : Prop where
  medium : 0 < a.n_medium
  sample : 0 < n
  inc0 : 0 ≤ a.incident
  inc1 : a.incident ≤ Real.pi / 2
  tmin : Real.pi / 2 ≤ a.theta_min
  tmm : a.theta_min ≤ a.theta_max
  tmax : a.theta_max ≤ Real.pi
  azi : a.phi_min ≤ a.phi_max
  azi2 : a.phi_max - a.phi_min ≤ 2 * Real.pi
  sm0 : 0 ≤ a.small_angle
  sm1 : a.small_angle ≤ Real.pi / 2
  absorbs : 0 ≤ σa
  dcs : ∀ t, 0 ≤ (f t).1 ∧ 0 ≤ (f t).2
  cont1 : ContinuousOn (fun t => (f t).1) (Icc 0 Real.pi)
  cont2 : ContinuousOn (fun t => (f t).2) (Icc 0 Real.pi)
  scatters : 0 < sigmaScat a n f

theorem rho_of {a : Reflection.Args} (ha : Sensible a) : 0 < rhoOf a ∧
    rhoOf a * ((a.concentration.getD (1, 0)).1 * (4 / 3 * Real.pi * CalcScat.outer a.radius ^ 3) +
      (a.concentration.getD (1, 0)).2 * (4 / 3 * Real.pi * CalcScat.outer (a.radius2.getD a.radius) ^ 3)) =
      a.volume_fraction * ((a.concentration.getD (1, 0)).1 + (a.concentration.getD (1, 0)).2) := by
  have hpi := Real.pi_pos
  have hphi := ha.phi
  have h1 := ha.radius
  have h2 := ha.radius2
  unfold rhoOf Reflection.radius2Of SingleScat.rho numberDensity
  set r := CalcScat.outer a.radius
  set r2 := CalcScat.outer (a.radius2.getD a.radius)
  cases hc : a.concentration with
  | none =>
    simp only [Option.getD_none]
    refine ⟨by positivity, ?_⟩
    field_simp
    ring
  | some c =>
    obtain ⟨ca, cb⟩ := c
    obtain ⟨c1, c2, c3, c4⟩ := ha.conc _ hc
    simp only [Option.getD_some] at c1 c2 c3 c4 ⊢
    by_cases h0 : ca = 0
    · have e : r2 = r := c4 h0
      subst h0
      rw [if_pos (Or.inl rfl), e]
      refine ⟨by positivity, ?_⟩
      field_simp
    by_cases h0' : cb = 0
    · subst h0'
      rw [if_pos (Or.inr rfl)]
      refine ⟨by positivity, ?_⟩
      field_simp
      ring
    rw [if_neg (by tauto)]
    have p1 : 0 < ca := lt_of_le_of_ne c1 (Ne.symm h0)
    have p2 : 0 < cb := lt_of_le_of_ne c2 (Ne.symm h0')
    refine ⟨by positivity, ?_⟩
    have e1 : r ^ 3 + r2 ^ 3 * cb / ca = (ca * r ^ 3 + cb * r2 ^ 3) / ca := by field_simp
    have e2 : r2 ^ 3 + r ^ 3 * ca / cb = (ca * r ^ 3 + cb * r2 ^ 3) / cb := by field_simp; ring
    have hp : 0 < ca * r ^ 3 + cb * r2 ^ 3 := by positivity
    rw [e1, e2]
    field_simp

/-- C154.  A sample of particles in a medium whose (effective) index `n` has no imaginary part, as `reflection` gets it, with continuous differential
cross sections `f` and absorption cross section `σa`; any thickness; a detector in the backward half space.  `reflection` returns numbers on every fine
enough grid of angles, and they converge: the reflectance in each polarisation to the textbook reflectance of the surface plus the light that enters,
times the cross section for being scattered towards the detector and passing the surface, relative to scattering and absorption, times what the
film scatters of what a semi-infinite sample scatters, for the number `ρ` of particles per volume that fills the volume fraction; the reflectance is the
mean of both, and at normal incidence its limit is a fraction; the asymmetry parameter converges to the mean cosine `g` of the scattering angle and
the transport length to `1/(ρ σ (1 - g))`. -/
theorem C154_transparent_film (E : Ext) (a : Reflection.Args) (ha : Sensible a) (hlen : a.n_particle.length = a.radius.length)
    {n : ℝ} {xe : Option (List ℂ)} (hmed : ScattersIn E a n xe) {f : ℝ → ℝ × ℝ} (hf : E.dcs (scatterers a n xe) = .ok f)
    {σa : ℝ} (hσa : E.cabs (a.n_particle.map fun np => np / n) (a.radius.map fun r : ℝ => 2 * Real.pi * (n : ℂ) / a.wavelen * r) (a.wavelen / n) = σa)
    (h : FilmAndDetector a n σa f) :
    ∃ (ρ : ℝ) (R P S g l : ℕ → ℝ), 0 < ρ ∧
      ρ * ((a.concentration.getD (1, 0)).1 * (4 / 3 * Real.pi * CalcScat.outer a.radius ^ 3) +
        (a.concentration.getD (1, 0)).2 * (4 / 3 * Real.pi * CalcScat.outer (a.radius2.getD a.radius) ^ 3)) =
        a.volume_fraction * ((a.concentration.getD (1, 0)).1 + (a.concentration.getD (1, 0)).2) ∧
      (∀ᶠ m in atTop, Reflection.reflection E { a with num_angles := m } = .ok ⟨fin (R m), fin (P m), fin (S m), fin (g m), fin (l m)⟩) ∧
      Tendsto P atTop (𝓝 (fresnelP a.n_medium n a.incident + (1 - fresnelP a.n_medium n a.incident) *
        (sigmaSeen a n (fun t => (f t).1) fresnelP / (sigmaScat a n f + σa)) * filmShare ρ (sigmaScat a n f) σa a.thickness)) ∧
      Tendsto S atTop (𝓝 (fresnelS a.n_medium n a.incident + (1 - fresnelS a.n_medium n a.incident) *
        (sigmaSeen a n (fun t => (f t).2) fresnelS / (sigmaScat a n f + σa)) * filmShare ρ (sigmaScat a n f) σa a.thickness)) ∧
      (∀ m, R m = (P m + S m) / 2) ∧
      Tendsto g atTop (𝓝 (meanCosine a f)) ∧
      Tendsto l atTop (𝓝 (1 / (ρ * sigmaScat a n f * (1 - meanCosine a f)))) ∧
      ((∀ L, a.thickness = some L → 0 ≤ L) → a.incident = 0 → ∃ r, Tendsto R atTop (𝓝 r) ∧ 0 ≤ r ∧ r ≤ 1) := by
  obtain ⟨hρ, hρ'⟩ := rho_of ha
  have hw := ha.wavelen
  have hn := h.sample
  have hπ := Real.pi_pos
  set A := transparent E a n (dcsCall a n xe) f with hA
  have hk : A.k = 2 * Real.pi * n / a.wavelen := by simp [hA, transparent]
  have hk2 : 2 * Real.pi / A.k ^ 2 = (a.wavelen / n) ^ 2 / (2 * Real.pi) := by
    rw [hk]; field_simp
  have hσ : sigmaTotal A = sigmaScat a n f := by
    unfold sigmaTotal sigmaScat
    rw [hk2]
    rfl
  have hdet : ∀ (d : ℝ → ℝ) (Q : ℝ → ℝ → ℝ → ℝ), sigmaDet A d Q = sigmaSeen a n d Q := by
    intro d Q
    unfold sigmaDet sigmaSeen
    have e : (A.phi_max - A.phi_min) / A.k ^ 2 = (a.wavelen / n) ^ 2 / (2 * Real.pi) * ((a.phi_max - a.phi_min) / (2 * Real.pi)) := by
      rw [← hk2]
      have : A.k ≠ 0 := by rw [hk]; positivity
      simp only [hA, transparent]
      field_simp
    rw [e]
    rfl
  have hdist : distanceOf a = (scatterers a n xe).distance := by
    unfold distanceOf scatterers
    dsimp only
    split_ifs <;> rfl
  have hcall : dcsCall a n xe = scatterers a n xe := by
    unfold dcsCall
    rw [hdist]
    rfl
  have hcabs : A.cabs = σa := hσa
  have hsamp : A.n_sample = n := by simp [hA, transparent]
  have hS : Setup A :=
    { medium := h.medium, sample := by rw [hsamp]; exact hn, inc0 := h.inc0, inc1 := h.inc1, tmin := h.tmin, tmm := h.tmm, tmax := h.tmax
      azi := h.azi, sm0 := h.sm0, sm1 := h.sm1.trans (by linarith), rho := hρ, cabs := by rw [hcabs]; exact h.absorbs
      dcs := h.dcs, cont1 := h.cont1, cont2 := h.cont2, scatters := by rw [hσ]; exact h.scatters }
  have hrun : ∀ m, Reflection.reflection E { a with num_angles := m } = SingleScat.reflection { A with num := m } a.thickness := by
    intro m
    have hs : sampleOf E { a with num_angles := m } = .ok ((n : ℂ), xe) := by
      unfold sampleOf
      cases hmed with
      | both h1 h2 h3 => simp [h1, h2, h3, Bind.bind, Except.bind, Pure.pure, Except.pure]
      | struct ne h1 h2 h3 h4 => simp [h1, h2, h4, ← h3, Bind.bind, Except.bind, Pure.pure, Except.pure, CalcScat.sizeParameter]
      | neither h1 h2 h3 => simp [h1, h2, h3]
    unfold Reflection.reflection
    rw [if_neg (by simpa using hlen), hs]
    have hd : E.dcs (dcsCall { a with num_angles := m } n xe) = .ok f := by
      rw [← hcall] at hf; exact hf
    simp only [Bind.bind, Except.bind, hd, Complex.ofReal_im, abs_zero, lt_irrefl, if_false]
    rfl
  obtain ⟨R, P, S, g, l, hev, hP, hS', hR, hg, hl⟩ := C129_fine_grid A hS a.thickness
  have hshare : scatteredShare A a.thickness = filmShare (rhoOf a) (sigmaScat a n f) σa a.thickness := by
    unfold scatteredShare filmShare
    rw [hσ, hcabs]
    rfl
  have e1 : A.n_medium = a.n_medium := rfl
  have e2 : A.incident = a.incident := rfl
  have e3 : A.dcs = f := rfl
  rw [hσ, hcabs, hdet, hshare, hsamp, e1, e2, e3] at hP hS'
  have hmean : sigmaCos A / sigmaTotal A = meanCosine a f := by
    have hk0 : 2 * Real.pi / A.k ^ 2 ≠ 0 := by rw [hk2]; positivity
    unfold sigmaCos sigmaTotal meanCosine
    rw [mul_div_mul_left _ _ hk0]
    rfl
  rw [hmean] at hg hl
  rw [hσ] at hl
  refine ⟨rhoOf a, R, P, S, g, l, hρ, hρ', ?_, hP, hS', hR, hg, hl, ?_⟩
  · filter_upwards [hev] with m hm
    rw [hrun, hm]
  · intro hth h0
    obtain ⟨R', r, hev', hr, r0, -, r1⟩ := C152_reflectance_fraction_partial A hS h.azi2 h.sm1 a.thickness hth
    refine ⟨r, hr.congr' ?_, r0, r1 (Or.inl h0)⟩
    filter_upwards [hev, hev'] with m hm hm'
    obtain ⟨o, ho, hor⟩ := hm'
    rw [hm] at ho
    simp only [Except.ok.injEq] at ho
    rw [← ho] at hor
    exact ((fin_inj _ _).mp hor).symm

/-- Non-vacuity: a film of thickness 1 of isotropic scatterers. -/
example : Sensible { demoRefl with thickness := some 1 } ∧ ScattersIn demoExt { demoRefl with thickness := some 1 } 1 none ∧
    (∃ f, demoExt.dcs (scatterers { demoRefl with thickness := some 1 } 1 none) = .ok f ∧
      FilmAndDetector { demoRefl with thickness := some 1 } 1 (demoExt.cabs [3 / 2 / (1 : ℝ)] [2 * Real.pi * ((1 : ℝ) : ℂ) / ((2 * Real.pi : ℝ) : ℂ) * ((1 : ℝ) : ℂ)]
        (((2 * Real.pi : ℝ) : ℂ) / ((1 : ℝ) : ℂ))) f) := by
  have hπ := Real.pi_pos
  refine ⟨⟨?_, ?_, ?_, ?_, ?_⟩, .both rfl rfl (by simp [demoExt]), _, rfl, ?_⟩
  · simp [demoRefl, CalcScat.outer]
  · simp [demoRefl, CalcScat.outer]
  · simp [demoRefl]
  · simp only [demoRefl]; positivity
  · intro c hc; simp [demoRefl] at hc
  · refine ⟨one_pos, one_pos, le_rfl, by simp only [demoRefl]; positivity, le_rfl, by simp only [demoRefl]; linarith, le_rfl,
      by simp only [demoRefl]; positivity, by simp [demoRefl], le_rfl, by simp only [demoRefl]; positivity, by simp [demoExt],
      fun t => by simp, continuousOn_const, continuousOn_const, ?_⟩
    simp only [sigmaScat, demoRefl]
    norm_num
    positivity

end
end Verif.Props
