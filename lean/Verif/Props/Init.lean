import Verif.Model.Init
import Verif.Lemmas.Geometry
import Verif.Lemmas.Root
import Verif.Props.Fields
import Mathlib.Algebra.BigOperators.Field

/-!
# C36, C38, C39, C40: initial photons, argument checks, scattering coefficients, phase function
-/

namespace Verif.Props
open Verif.Init Verif.Spec Verif.XF Verif.Geometry
open Verif (XF PyErr)

variable {nt : ℕ}

/-- unit vector with polar angle `θ` and azimuth `φ` -/
noncomputable def polar (θ φ : ℝ) : V3 := ⟨Real.sin θ * Real.cos φ, Real.sin θ * Real.sin φ, Real.cos θ⟩

theorem polar_unit (θ φ : ℝ) : (polar θ φ).normSq = 1 := by
  simp only [V3.normSq, V3.dot, polar]
  nlinarith [Real.sin_sq_add_cos_sq θ, Real.sin_sq_add_cos_sq φ, sq_nonneg (Real.sin θ)]

/-! ### C38 -/

/-- the lengths of the optional data arrays are right -/
def LengthOk (nt : ℕ) (data : Option (List ℝ)) : Prop := ∀ l ∈ data, l.length = nt

theorem incidence_ok {data : Option (List ℝ)} {lo hi : ℝ} {u : Fin nt → ℝ} (h : LengthOk nt data) :
    ∃ t, incidence data lo hi u = .ok t := by
  cases data with
  | none => exact ⟨_, rfl⟩
  | some l =>
    have := h l rfl
    unfold incidence
    simp only [this, ne_eq, not_true_eq_false, dif_neg, not_false_eq_true]
    exact ⟨_, rfl⟩

theorem incidence_err {data : Option (List ℝ)} {lo hi : ℝ} {u : Fin nt → ℝ} (h : ¬ LengthOk nt data) :
    incidence data lo hi u = .error .valueError := by
  cases data with
  | none => exact absurd (fun l hl => (nomatch hl)) h
  | some l =>
    have : l.length ≠ nt := fun hl => h fun l' hl' => by cases hl'; exact hl
    unfold incidence
    simp only [this, ne_eq, not_false_eq_true, dif_pos]

/-- C38.  `initialize` raises ValueError exactly when: the boundary is 'film' and a sample diameter is given or one of the
user's angle arrays does not have one entry per trajectory; or the boundary is 'sphere' and there is no diameter or coarse
roughness is requested.  For both boundaries it returns normally in all other cases; any other boundary string fails too. -/
theorem C38_initialize_validation (a : Args nt) :
    (initializeTraj a = .error .valueError ↔
      (a.boundary = .film ∧ (a.sample_diameter ≠ none ∨ ¬ LengthOk nt a.theta_data ∨ ¬ LengthOk nt a.phi_data)) ∨
      (a.boundary = .sphere ∧ (a.sample_diameter = none ∨ a.coarse_roughness ≠ 0))) ∧
    (a.boundary ≠ .other → initializeTraj a ≠ .error .valueError → ∃ p, initializeTraj a = .ok p) ∧
    (a.boundary = .other → initializeTraj a = .error .unboundLocalError) := by
  have key : ∀ (r0 : Fin nt → XV) (t c s : Fin nt → XF), a.boundary = .film → ∃ p, enter a r0 t c s = .ok p := by
    intro r0 t c s hb
    unfold enter
    split
    · exact ⟨_, rfl⟩
    · rw [if_neg (by rw [hb]; simp)]; exact ⟨_, rfl⟩
  rcases hb : a.boundary with _ | _ | _
  · -- film
    have e := initializeTraj.eq_1 a
    rw [hb] at e
    simp only at e
    by_cases hd : a.sample_diameter = none
    · have hd' : a.sample_diameter.isSome = false := by rw [hd]; rfl
      rw [hd'] at e
      simp only [Bool.false_eq_true, if_false] at e
      by_cases ht : LengthOk nt a.theta_data
      · obtain ⟨t, ht'⟩ := incidence_ok (lo := a.theta_min) (hi := a.theta_max) (u := a.ut) ht
        rw [ht'] at e
        simp only at e
        by_cases hp : LengthOk nt a.phi_data
        · obtain ⟨p, hp'⟩ := incidence_ok (lo := a.phi_min) (hi := a.phi_max) (u := a.up) hp
          rw [hp'] at e
          simp only at e
          obtain ⟨r, hr⟩ := key (fun j => finV (a.ux j * a.spot_size) (a.uy j * a.spot_size) 0) (fun j => fin (t j))
            (fun j => fin (Real.cos (p j))) (fun j => fin (Real.sin (p j))) hb
          rw [hr] at e
          rw [e]
          simp [hd, ht, hp]
        · rw [incidence_err hp] at e
          rw [e]; simp [hp]
      · rw [incidence_err ht] at e
        rw [e]; simp [ht]
    · have hd' : a.sample_diameter.isSome = true := Option.isSome_iff_ne_none.mpr hd
      rw [hd'] at e
      simp only [if_true] at e
      rw [e]; simp [hd]
  · -- sphere
    have e := initializeTraj.eq_1 a
    rw [hb] at e
    simp only at e
    rcases hd : a.sample_diameter with _ | d
    · rw [hd] at e
      rw [e]; simp
    · rw [hd] at e
      simp only at e
      by_cases hc : a.coarse_roughness = 0
      · rw [enter, if_pos hc] at e
        rw [e]; simp [hc]
      · rw [enter, if_neg hc, if_pos hb] at e
        rw [e]; simp [hc]
  · have e := initializeTraj.eq_1 a
    rw [hb] at e
    rw [e]; simp

/-! ### C36 -/

theorem firstRow_zero (v : Fin nt → XV) (j : Fin nt) : firstRow v 0 j = v j := if_pos rfl

theorem firstRow_succ (v : Fin nt → XV) {n : ℕ} (hn : n ≠ 0) (j : Fin nt) : firstRow v n j = finV 0 0 0 := if_neg hn

theorem direction_refr {θ c s nm ns : ℝ} (hs : 0 < ns) (h : nm * |Real.sin θ| ≤ ns) (hm : 0 < nm) :
    direction (Root.refraction1 (fin θ) (XF.abs (fin nm)) (XF.abs (fin ns))) (fin c) (fin s) =
      ofV3 ⟨nm / ns * Real.sin θ * c, nm / ns * Real.sin θ * s, Real.sqrt (1 - (nm / ns * Real.sin θ) ^ 2)⟩ := by
  have hle : |nm / ns * Real.sin θ| ≤ 1 := by
    rw [abs_mul, abs_of_pos (div_pos hm hs), div_mul_eq_mul_div, div_le_one hs]; exact h
  have hle' := abs_le.mp hle
  rw [abs_fin, abs_fin, abs_of_pos hm, abs_of_pos hs, Root.refraction1_fin hs.ne', if_neg (not_lt.mpr hle)]
  simp only [direction, sin_fin, cos_fin, fin_mul, ofV3, finV, Real.sin_arcsin hle'.1 hle'.2, Real.cos_arcsin]

theorem refractedAt_z {θ φ nm ns : ℝ} (hs : 0 < ns) (h : nm * |Real.sin θ| ≤ ns) (hm : 0 < nm) :
    RefractedAt nm ns ⟨0, 0, 1⟩ (polar θ φ)
      ⟨nm / ns * Real.sin θ * Real.cos φ, nm / ns * Real.sin θ * Real.sin φ, Real.sqrt (1 - (nm / ns * Real.sin θ) ^ 2)⟩ := by
  have hle : |nm / ns * Real.sin θ| ≤ 1 := by
    rw [abs_mul, abs_of_pos (div_pos hm hs), div_mul_eq_mul_div, div_le_one hs]; exact h
  have h1 : (nm / ns * Real.sin θ) ^ 2 ≤ 1 := by rw [sq_le_one_iff_abs_le_one]; exact hle
  refine ⟨?_, ?_, ?_⟩
  · simp only [V3.normSq, V3.dot]
    rw [Real.mul_self_sqrt (by linarith)]
    linear_combination (nm / ns * Real.sin θ) ^ 2 * Real.sin_sq_add_cos_sq φ
  · simp only [V3.dot]; have := Real.sqrt_nonneg (1 - (nm / ns * Real.sin θ) ^ 2); linarith
  · have hn := hs.ne'
    simp only [V3.smul, V3.cross, polar]
    ext <;> simp only [] <;> field_simp <;> ring

/-- the angle of incidence requested by the user for trajectory `j` -/
def Requested (data : Option (List ℝ)) (lo hi : ℝ) (j : Fin nt) (t : ℝ) : Prop :=
  match data with
  | some l => l[j.val]? = some t
  | none => lo ≤ t ∧ t ≤ hi

theorem incidence_requested {data : Option (List ℝ)} {lo hi : ℝ} {u : Fin nt → ℝ} {t : Fin nt → ℝ}
    (h : incidence data lo hi u = .ok t) (hlh : lo ≤ hi) (hu : ∀ j, 0 ≤ u j ∧ u j < 1) (j : Fin nt) :
    Requested data lo hi j (t j) := by
  unfold incidence at h
  cases data with
  | none =>
    injection h with h; subst h
    have := hu j
    show lo ≤ lo + (hi - lo) * u j ∧ lo + (hi - lo) * u j ≤ hi
    constructor <;> nlinarith
  | some l =>
    simp only at h
    split at h
    · cases h
    · injection h with h; subst h
      show l[j.val]? = some (l.get _)
      simp only [List.get_eq_getElem, Fin.val_cast]
      exact List.getElem?_eq_getElem _

/-- C36.  For a film with a flat surface, whatever the generator delivers: if `initialize` succeeds, every weight is 1, every
photon starts at z = 0 inside the square spot, later rows are zero, and the photon's first direction is the refraction, at the
horizontal surface and by Snell's law, of a unit direction whose polar and azimuthal angles are those requested (the user's
data, or within the requested range).  When the requested direction cannot enter (total external reflection), the direction
is NaN rather than a wrong number. -/
theorem C36_film_initial (a : Args nt) (hf : a.boundary = .film) (hc : a.coarse_roughness = 0) (hm : 0 < a.n_medium)
    (hs : 0 < a.n_sample) (hspot : 0 < a.spot_size) (htl : a.theta_min ≤ a.theta_max) (hpl : a.phi_min ≤ a.phi_max)
    (hx : ∀ j, 0 ≤ a.ux j ∧ a.ux j < 1) (hy : ∀ j, 0 ≤ a.uy j ∧ a.uy j < 1) (ht : ∀ j, 0 ≤ a.ut j ∧ a.ut j < 1)
    (hp : ∀ j, 0 ≤ a.up j ∧ a.up j < 1) (p : Props0 nt) (hok : initializeTraj a = .ok p) :
    (∀ n j, p.weight0 n j = 1) ∧
    (∀ n j, n ≠ 0 → p.r0 n j = finV 0 0 0 ∧ p.k0 n j = finV 0 0 0) ∧
    (∀ j, ∃ x y, p.r0 0 j = finV x y 0 ∧ 0 ≤ x ∧ x < a.spot_size ∧ 0 ≤ y ∧ y < a.spot_size) ∧
    (∀ j, ∃ θ φ, Requested a.theta_data a.theta_min a.theta_max j θ ∧ Requested a.phi_data a.phi_min a.phi_max j φ ∧
      (a.n_medium * |Real.sin θ| ≤ a.n_sample →
        ∃ k, p.k0 0 j = ofV3 k ∧ RefractedAt a.n_medium a.n_sample ⟨0, 0, 1⟩ (polar θ φ) k) ∧
      (a.n_sample < a.n_medium * |Real.sin θ| → p.k0 0 j = ⟨nan, nan, nan⟩)) := by
  unfold initializeTraj at hok
  rw [hf] at hok
  simp only at hok
  split at hok
  · cases hok
  rcases hθ : incidence a.theta_data a.theta_min a.theta_max a.ut with e | θ
  · rw [hθ] at hok; simp only at hok; cases hok
  rw [hθ] at hok
  simp only at hok
  rcases hφ : incidence a.phi_data a.phi_min a.phi_max a.up with e | φ
  · rw [hφ] at hok; simp only at hok; cases hok
  rw [hφ] at hok
  simp only at hok
  rw [enter, if_pos hc] at hok
  injection hok with hok
  subst hok
  refine ⟨fun _ _ => rfl, fun n j hn => by dsimp only; exact ⟨firstRow_succ _ hn j, firstRow_succ _ hn j⟩, ?_, ?_⟩
  · intro j
    refine ⟨a.ux j * a.spot_size, a.uy j * a.spot_size, firstRow_zero _ _, ?_, ?_, ?_, ?_⟩
    · exact mul_nonneg (hx j).1 hspot.le
    · nlinarith [(hx j).2]
    · exact mul_nonneg (hy j).1 hspot.le
    · nlinarith [(hy j).2]
  · intro j
    refine ⟨θ j, φ j, incidence_requested hθ htl ht j, incidence_requested hφ hpl hp j, ?_, ?_⟩
    · intro hle
      refine ⟨_, ?_, refractedAt_z hs hle hm⟩
      exact (firstRow_zero _ _).trans (direction_refr hs hle hm)
    · intro hlt
      dsimp only
      rw [firstRow_zero]
      have hgt : 1 < |a.n_medium / a.n_sample * Real.sin (θ j)| := by
        rw [abs_mul, abs_of_pos (div_pos hm hs), div_mul_eq_mul_div, lt_div_iff₀ hs]; linarith
      rw [abs_fin, abs_fin, abs_of_pos hm, abs_of_pos hs, Root.refraction1_fin hs.ne', if_pos hgt]
      simp [direction]

/-- Non-vacuity of C36: normal incidence on one trajectory. -/
example : ∃ p, initializeTraj (nt := 1) ⟨1, 3 / 2, .film, 0, 0, none, 0, 0, none, 1, none, 0, fun _ => 0, fun _ => 0,
    fun _ => 0, fun _ => 0, fun _ => 0, fun _ => 0, fun _ => 0⟩ = .ok p := by
  have h := (C38_initialize_validation (nt := 1) ⟨1, 3 / 2, .film, 0, 0, none, 0, 0, none, 1, none, 0, fun _ => 0, fun _ => 0,
    fun _ => 0, fun _ => 0, fun _ => 0, fun _ => 0, fun _ => 0⟩)
  apply h.2.1 (by simp)
  rw [ne_eq, h.1]
  have : LengthOk 1 none := fun l hl => (nomatch hl)
  simp [this]

/-! ### initial fields (used by C42) -/

/-- C42.  The fields prepared by `initialize` are unit vectors in the first two rows, without z component in any row, for every
choice of polarisation, coherence and random phases: they satisfy the hypotheses of `C42_fields_transverse`. -/
theorem C42_initial_fields (pol coh : Bool) (px py : ℝ) :
    (∀ n, n ≤ 1 → (initFields pol coh px py n).normSq = 1) ∧ (∀ n, (initFields pol coh px py n).z = 0) ∧
    (pol = true → ∀ n, (initFields pol coh px py n).y = 0) := by
  refine ⟨?_, ?_, ?_⟩
  · intro n hn
    have key : ∀ v : Traj.C3, v.z = 0 → v.normSq ≠ 0 →
        (Traj.C3.mk (Traj.normalizeC v).x (Traj.normalizeC v).y 0).normSq = 1 := by
      intro v hz hv
      have h1 := (normSq_normalizeC v).1 hv
      have hz' : (Traj.normalizeC v).z = 0 := by simp [Traj.normalizeC, hz]
      rw [← h1]
      simp only [Traj.C3.normSq, hz']
    simp only [initFields, if_pos hn]
    apply key _ rfl
    intro h0
    have h1 := C3_normSq_nonneg
    simp only [Traj.C3.normSq] at h0
    have hx : ∀ t : ℝ, Complex.normSq (Complex.exp (t * Complex.I)) = 1 := by
      intro t; rw [Complex.normSq_eq_norm_sq, Complex.norm_exp_ofReal_mul_I]; norm_num
    rw [hx] at h0
    have h2 := Complex.normSq_nonneg (if pol = true then (0 : ℂ) else Complex.exp ((if coh = true then 0 else 2 * Real.pi * py : ℝ) * Complex.I))
    have h3 := Complex.normSq_nonneg (0 : ℂ)
    linarith
  · intro n
    simp only [initFields]
    split <;> rfl
  · intro hp n
    simp only [initFields]
    split
    · simp [Traj.normalizeC]
    · rfl

/-! ### C39 -/

/-- volume of a sphere -/
noncomputable def ballVolume (r : ℝ) : ℝ := 4 / 3 * Real.pi * r ^ 3

theorem numberDensity_eq {r1 r2 c1 c2 φ : ℝ} (h1 : 0 < r1) (h2 : 0 < r2) (hc1 : 0 ≤ c1) (hc2 : 0 ≤ c2) (hc : 0 < c1 + c2) :
    numberDensity r1 (some r2) (some (c1, c2)) φ =
      fin (φ * (c1 + c2) / (c1 * ballVolume r1 + c2 * ballVolume r2)) := by
  have hr1 : 0 < r1 ^ 3 := by positivity
  have hr2 : 0 < r2 ^ 3 := by positivity
  have hpi := Real.pi_pos
  have hD : 0 < c1 * r1 ^ 3 + c2 * r2 ^ 3 := by
    rcases hc1.lt_or_eq with h | h
    · have := mul_pos h hr1; have := mul_nonneg hc2 hr2.le; linarith
    · have hc2' : 0 < c2 := by linarith
      have := mul_pos hc2' hr2; have := mul_nonneg hc1 hr1.le; linarith
  have term : ∀ {a b x y : ℝ}, 0 < a → 0 < b → 0 ≤ x → 0 ≤ y → 0 < x * a + y * b →
      (fin 1 / (fin a + fin b * fin y / fin x) : XF) = fin (x / (x * a + y * b)) := by
    intro a b x y ha hb hx hy hxy
    rcases hx.lt_or_eq with h | h
    · rw [fin_mul, fin_div _ h.ne', fin_add, fin_div _ (by positivity), fin_inj]
      field_simp
    · subst h
      have hy' : 0 < y := by
        rcases hy.lt_or_eq with h | h
        · exact h
        · subst h; simp at hxy
      have : (fin (b * y) / fin 0 : XF) = pinf := by
        rw [fin_div_def, if_pos rfl, infOfSign, if_pos (mul_pos hb hy')]
      rw [fin_mul, this]
      show (fin 1 / pinf : XF) = _
      show (fin 0 : XF) = _
      rw [fin_inj]; simp
  simp only [numberDensity, Option.getD_some]
  rw [term hr1 hr2 hc1 hc2 hD, term hr2 hr1 hc2 hc1 (by linarith), fin_add, fin_mul, fin_inj]
  have hD2 : c2 * r2 ^ 3 + c1 * r1 ^ 3 = c1 * r1 ^ 3 + c2 * r2 ^ 3 := by ring
  rw [hD2]
  unfold ballVolume
  have hD3 : c1 * (4 / 3 * Real.pi * r1 ^ 3) + c2 * (4 / 3 * Real.pi * r2 ^ 3) = 4 / 3 * Real.pi * (c1 * r1 ^ 3 + c2 * r2 ^ 3) := by
    ring
  rw [hD3]
  field_simp

/-- C39.  For two species with relative number concentrations `c1, c2 ≥ 0` (not both zero), including a pure species where one
concentration is exactly 0, the number density `n` used for the scattering coefficient makes the particles fill the volume
fraction: `n` times the mean particle volume is `volume_fraction`. -/
theorem C39_number_density {r1 r2 c1 c2 φ : ℝ} (h1 : 0 < r1) (h2 : 0 < r2) (hc1 : 0 ≤ c1) (hc2 : 0 ≤ c2) (hc : 0 < c1 + c2) :
    ∃ n, numberDensity r1 (some r2) (some (c1, c2)) φ = fin n ∧
      n * (c1 / (c1 + c2) * ballVolume r1 + c2 / (c1 + c2) * ballVolume r2) = φ ∧ (0 ≤ φ → 0 ≤ n) := by
  have hv : ∀ r, 0 < r → 0 < ballVolume r := fun r hr => by unfold ballVolume; have := Real.pi_pos; positivity
  have hv1 := hv r1 h1
  have hv2 := hv r2 h2
  have hD : 0 < c1 * ballVolume r1 + c2 * ballVolume r2 := by
    rcases hc1.lt_or_eq with h | h
    · have := mul_pos h hv1; have := mul_nonneg hc2 hv2.le; linarith
    · have hc2' : 0 < c2 := by linarith
      have := mul_pos hc2' hv2; have := mul_nonneg hc1 hv1.le; linarith
  refine ⟨_, numberDensity_eq h1 h2 hc1 hc2 hc, ?_, ?_⟩
  · field_simp
  · intro hφ; exact div_nonneg (mul_nonneg hφ hc.le) hD.le

/-- C39.  For a single species the number density is the volume fraction over the particle volume. -/
theorem C39_number_density_mono {r φ : ℝ} (h : 0 < r) : numberDensity r none none φ = fin (φ / ballVolume r) := by
  have := numberDensity_eq (φ := φ) h h zero_le_one le_rfl (by norm_num : (0 : ℝ) < 1 + 0)
  simp only [numberDensity, Option.getD_some, Option.getD_none] at this ⊢
  rw [this, fin_inj]; ring_nf

/-- C39.  The scattering coefficient is a non-negative number, proportional to the volume fraction; the absorption coefficient
is non-negative for a non-negative imaginary index and zero for a real one. -/
theorem C39_coefficients {r1 r2 c1 c2 φ cs ni w : ℝ} (h1 : 0 < r1) (h2 : 0 < r2) (hc1 : 0 ≤ c1) (hc2 : 0 ≤ c2)
    (hc : 0 < c1 + c2) (hφ : 0 ≤ φ) (hcs : 0 ≤ cs) (hw : 0 < w) (hni : 0 ≤ ni) :
    ∃ ms ma, muScatAbs (numberDensity r1 (some r2) (some (c1, c2)) φ) cs ni w = (fin ms, fin ma) ∧ 0 ≤ ms ∧ 0 ≤ ma ∧
      (ma = 0 ↔ ni = 0) ∧
      ∀ s, (muScatAbs (numberDensity r1 (some r2) (some (c1, c2)) (s * φ)) cs ni w).1 = fin (s * ms) := by
  obtain ⟨n, hn, -, hn0⟩ := C39_number_density (φ := φ) h1 h2 hc1 hc2 hc
  have hpi := Real.pi_pos
  refine ⟨n * cs, 4 * Real.pi * ni / w, ?_, mul_nonneg (hn0 hφ) hcs, by positivity, ?_, ?_⟩
  · simp only [muScatAbs, hn, fin_mul, fin_div _ hw.ne']
  · rw [div_eq_zero_iff]
    constructor
    · rintro (h | h)
      · rcases mul_eq_zero.mp h with h | h
        · linarith
        · exact h
      · linarith
    · rintro rfl; left; ring
  · intro s
    have e1 := numberDensity_eq (φ := φ) h1 h2 hc1 hc2 hc
    rw [hn, fin_inj] at e1
    simp only [muScatAbs, numberDensity_eq (φ := s * φ) h1 h2 hc1 hc2 hc, fin_mul, fin_inj, e1]
    ring

/-- Non-vacuity of C39: the boundary case of a pure second species. -/
example : ∃ n, numberDensity 1 (some 2) (some (0, 1)) (1 / 2) = fin n ∧ n * ballVolume 2 = 1 / 2 := by
  obtain ⟨n, h1, h2, -⟩ := C39_number_density (r1 := 1) (r2 := 2) (c1 := 0) (c2 := 1) (φ := 1 / 2) (by norm_num) (by norm_num)
    le_rfl zero_le_one (by norm_num)
  refine ⟨n, h1, ?_⟩
  rw [← h2]; norm_num

/-! ### C40 -/

/-- C40.  For non-negative differential cross sections that are not all zero, the phase function consists of non-negative
numbers that sum to 1, in proportion to the unpolarised cross section. -/
theorem C40_phase_function {n : ℕ} (par perp : Fin n → ℝ) (h1 : ∀ i, 0 ≤ par i) (h2 : ∀ i, 0 ≤ perp i)
    (hne : ∃ i, par i ≠ 0 ∨ perp i ≠ 0) :
    ∃ p : Fin n → ℝ, (∀ i, phaseFunction par perp i = fin (p i)) ∧ (∀ i, 0 ≤ p i) ∧ ∑ i, p i = 1 ∧
      ∀ i j, p i * (par j + perp j) = p j * (par i + perp i) := by
  have hw : ∀ i, 0 ≤ par i + perp i := fun i => add_nonneg (h1 i) (h2 i)
  have hs : 0 < ∑ i, (par i + perp i) := by
    obtain ⟨i, hi⟩ := hne
    refine Finset.sum_pos' (fun i _ => hw i) ⟨i, Finset.mem_univ i, ?_⟩
    have a := h1 i
    have b := h2 i
    rcases hi with h | h
    · have : 0 < par i := lt_of_le_of_ne a (Ne.symm h); linarith
    · have : 0 < perp i := lt_of_le_of_ne b (Ne.symm h); linarith
  refine ⟨fun i => (par i + perp i) / ∑ k, (par k + perp k), fun i => fin_div _ hs.ne', fun i => div_nonneg (hw i) hs.le, ?_, ?_⟩
  · rw [← Finset.sum_div]; exact div_self hs.ne'
  · intro i j; field_simp

/-- Non-vacuity of C40. -/
example : ∃ i : Fin 2, (fun k : Fin 2 => if k = 0 then (1 : ℝ) else 0) i ≠ 0 ∨ (fun _ : Fin 2 => (0 : ℝ)) i ≠ 0 :=
  ⟨0, Or.inl (by norm_num)⟩

/-- Non-vacuity of C38: the conditions are met and violated by ordinary arguments. -/
example (a : Args 2) : initializeTraj { a with boundary := .film, sample_diameter := some 3 } = .error .valueError ∧
    initializeTraj { a with boundary := .film, sample_diameter := none, theta_data := some [0, 0, 0] } = .error .valueError ∧
    initializeTraj { a with boundary := .sphere, sample_diameter := some 3, coarse_roughness := 1/2 } = .error .valueError ∧
    ∃ p, initializeTraj { a with boundary := .film, sample_diameter := none, theta_data := some [0, 1], phi_data := none } = .ok p := by
  refine ⟨?_, ?_, ?_, ?_⟩
  · rw [(C38_initialize_validation _).1]; left; exact ⟨rfl, Or.inl (by simp)⟩
  · rw [(C38_initialize_validation _).1]; left; exact ⟨rfl, Or.inr (Or.inl (by simp [LengthOk]))⟩
  · rw [(C38_initialize_validation _).1]; right; exact ⟨rfl, Or.inr (by norm_num)⟩
  · refine (C38_initialize_validation _).2.1 (by simp) ?_
    rw [Ne, (C38_initialize_validation _).1]
    simp [LengthOk]

end Verif.Props
