import Verif.Model.CalcScat
import Verif.Lemmas.Trapz
import Verif.Props.Init
import Mathlib.Analysis.Real.Pi.Bounds

/-!
# Properties of `calc_scat` and `phase_function`, /repo/structcol/montecarlo.py: C86–C89
-/

namespace Verif.Props
open Classical XF Verif.CalcScat Verif.SingleScat Verif.Lemmas

/-- what a successful call of `calc_scat` did -/
theorem calcScat_inv {P : Type} {pf : Call → Except PyErr (P × ℝ)} {a : Args} {r : P × List XF × XF}
    (h : calcScat pf a = .ok r) :
    ∃ n xe ft st cs, sampleFor a = .ok (n, xe) ∧ typesFor a = .ok (ft, st) ∧ pf (mainCall a n xe ft st) = .ok (r.1, cs) ∧
      r.2.2 = (Init.muScatAbs (densityOf a) cs n.im a.wavelen).2 ∧
      ((¬ 0 < a.fine_roughness ∧ r.2.1 = [(Init.muScatAbs (densityOf a) cs n.im a.wavelen).1]) ∨
       (0 < a.fine_roughness ∧ ∃ nm p2 cs2, a.n_matrix = some nm ∧ pf (mieCall a nm ft) = .ok (p2, cs2) ∧
          r.2.1 = [(Init.muScatAbs (densityOf a) cs n.im a.wavelen).1, densityOf a * fin cs2])) := by
  unfold calcScat at h
  cases hs : sampleFor a with
  | error e => rw [hs] at h; exact (nomatch h)
  | ok nx =>
  obtain ⟨n, xe⟩ := nx
  rw [hs] at h
  cases ht : typesFor a with
  | error e => rw [ht] at h; exact (nomatch h)
  | ok t =>
  obtain ⟨ft, st⟩ := t
  rw [ht] at h
  simp only [bind, Except.bind] at h
  split at h
  · exact (nomatch h)
  · next p hp =>
    obtain ⟨p, cs⟩ := p
    simp only at h
    split at h
    · next hr =>
      split at h
      · exact (nomatch h)
      · next nm hnm =>
        split at h
        · exact (nomatch h)
        · next p2 hp2 =>
          simp only [pure, Except.pure, Except.ok.injEq] at h
          subst h
          exact ⟨n, xe, ft, st, cs, rfl, rfl, hp, rfl, Or.inr ⟨hr, nm, p2.1, p2.2, hnm, hp2, rfl⟩⟩
    · next hr =>
      simp only [pure, Except.pure, Except.ok.injEq] at h
      subst h
      exact ⟨n, xe, ft, st, cs, rfl, rfl, hp, rfl, Or.inl ⟨hr, rfl⟩⟩

/-! ## C86 -/

/-- `c` describes scattering by the particles of `a` in a homogeneous medium of index `n`: relative indices, size parameters and
wavevector all refer to `n`. -/
def InMedium (a : Args) (n : ℂ) (c : Call) : Prop :=
  c.m = a.n_particle.map (fun np => np / n) ∧ c.x = a.radius.map (fun r : ℝ => 2 * Real.pi * n / a.wavelen * r) ∧
  c.k = 2 * Real.pi * n / a.wavelen ∧ c.n_sample = n

/-- the size parameters from which the structure factor's argument is computed are those in a medium of index `n` -/
def StructureIn (a : Args) (n : ℂ) (c : Call) : Prop :=
  c.x_eff.getD c.x = a.radius.map (fun r : ℝ => 2 * Real.pi * n / a.wavelen * r)

/-- C86, the part that holds.  Whenever `calc_scat` succeeds, the phase function it returns is that of the particles in the index asked
for: the effective index if `effective_medium_form`, otherwise the matrix; and, unless `effective_medium_form` is set without
`effective_medium_struct`, the structure factor is evaluated with the effective index if `effective_medium_struct` and with the matrix
index otherwise.  Missing: the combination refuted below. -/
theorem C86_index_asked_for_partial {P : Type} (pf : Call → Except PyErr (P × ℝ)) (a : Args) {r : P × List XF × XF}
    (h : calcScat pf a = .ok r) :
    ∃ (c : Call) (cs : ℝ), pf c = .ok (r.1, cs) ∧
      (a.effective_medium_form = true → InMedium a a.n_sample c) ∧
      (a.effective_medium_form = false → ∃ nm, a.n_matrix = some nm ∧ InMedium a nm c) ∧
      (a.effective_medium_struct = true → StructureIn a a.n_sample c) ∧
      (a.effective_medium_struct = false → a.effective_medium_form = false → ∃ nm, a.n_matrix = some nm ∧ StructureIn a nm c) := by
  obtain ⟨n, xe, ft, st, cs, hs, _, hp, _, _⟩ := calcScat_inv h
  refine ⟨_, cs, hp, ?_⟩
  unfold sampleFor at hs
  cases hf : a.effective_medium_form <;> cases hst : a.effective_medium_struct <;> cases hm : a.n_matrix <;>
    simp_all [InMedium, StructureIn, indexRatio, sizeParameter, mainCall] <;> (rw [← hs.2]; rfl)

/-- C86 is FALSE of the remaining combination: with `effective_medium_form` and not `effective_medium_struct`, the structure factor is
evaluated with the effective index all the same, whatever the matrix is. -/
theorem C86_matrix_structure_refuted {P : Type} (pf : Call → Except PyErr (P × ℝ)) (a : Args) {r : P × List XF × XF}
    (h : calcScat pf a = .ok r) (_hf : a.effective_medium_form = true) (_hst : a.effective_medium_struct = false) :
    ∃ (c : Call) (cs : ℝ), pf c = .ok (r.1, cs) ∧ StructureIn a a.n_sample c := by
  obtain ⟨n, xe, ft, st, cs, hs, _, hp, _, _⟩ := calcScat_inv h
  refine ⟨_, cs, hp, ?_⟩
  unfold sampleFor at hs
  simp_all [StructureIn, sizeParameter, mainCall]
  rw [← hs.2]; rfl

/-- the argument of the structure factor: `q d` with `q = 2 |k| sin(θ/2)` for the wavevector in the medium used, `d` the outer
diameter -/
theorem outer_scale {c : ℝ} (hc : 0 ≤ c) (r : List ℝ) (hr : ∀ x ∈ r, 0 ≤ x) :
    (r.map fun x => c * x).foldr max 0 = c * outer r := by
  induction r with
  | nil => simp [outer]
  | cons x r ih =>
    have ih' := ih fun y hy => hr y (by simp [hy])
    simp only [List.map_cons, List.foldr_cons, outer] at *
    rw [ih', mul_max_of_nonneg _ _ hc]

/-- C86.  The argument at which the structure factor is evaluated is the momentum transfer `2 |k| sin(θ/2)` in the medium of index `n`
times the outer diameter of the particle. -/
theorem C86_momentum_transfer (a : Args) (n : ℂ) (c : Call) (h : StructureIn a n c) (hr : ∀ x ∈ a.radius, 0 ≤ x) (θ : ℝ) :
    qd ((c.x_eff.getD c.x).map (fun z => ‖z‖)) none θ =
      2 * ‖(2 * Real.pi * n / a.wavelen : ℂ)‖ * Real.sin (θ / 2) * (2 * outer a.radius) := by
  unfold qd
  rw [h]
  simp only [Option.getD_none, List.map_map]
  have : ((fun v : ℝ => |v|) ∘ (fun z : ℂ => ‖z‖) ∘ fun r : ℝ => 2 * Real.pi * n / a.wavelen * r) =
      fun r : ℝ => ‖(2 * Real.pi * n / a.wavelen : ℂ)‖ * |r| := by
    funext r
    simp only [Function.comp_apply, norm_mul, abs_mul, abs_norm, Complex.norm_real, Real.norm_eq_abs, abs_abs]
  rw [this]
  have hcongr : a.radius.map (fun r : ℝ => ‖(2 * Real.pi * n / a.wavelen : ℂ)‖ * |r|) =
      a.radius.map (fun r : ℝ => ‖(2 * Real.pi * n / a.wavelen : ℂ)‖ * r) := by
    apply List.map_congr_left
    intro x hx
    rw [abs_of_nonneg (hr x hx)]
  rw [hcongr, outer_scale (norm_nonneg _) _ hr]
  ring

/-- a sample for the examples: particles of index 3/2 and radius 1/10 in a matrix of index 1 -/
noncomputable def demoScat : Args :=
  { radius := [1 / 10], n_particle := [3 / 2], n_sample := 5 / 4, volume_fraction := 1 / 2, wavelen := 1 / 2, radius2 := none
    concentration := none, pdi := none, polydisperse := false, fields := false, fine_roughness := 0, min_angle := 1 / 100
    num_angles := 200, num_phis := 300, structure_type := .str "glass", form_type := some "sphere", n_matrix := some 1
    effective_medium_struct := true, effective_medium_form := true }

theorem demoScat_ok (f s : Bool) (fr : ℝ) :
    ∃ r, calcScat (fun _ => .ok ((), 1))
      { demoScat with effective_medium_form := f, effective_medium_struct := s, fine_roughness := fr } = .ok r := by
  cases f <;> by_cases h : 0 < fr <;>
    simp [calcScat, sampleFor, typesFor, demoScat, bind, Except.bind, pure, Except.pure, h]

/-- Non-vacuity of C86 (all four combinations of the flags) -/
example (f s : Bool) := demoScat_ok f s 0

/-! ## C87 -/

/-- C87.  Fine roughness only adds a second scattering coefficient: the phase function, the first coefficient and the absorption
coefficient are those without it.  The second is the number density times the cross section of the particles in the matrix, without
structure factor. -/
theorem C87_fine_roughness_adds {P : Type} (pf : Call → Except PyErr (P × ℝ)) (a : Args) (hr : 0 < a.fine_roughness)
    {r : P × List XF × XF} (h : calcScat pf a = .ok r) :
    ∃ mu mu_mie nm c p2 cs2, r.2.1 = [mu, mu_mie] ∧ calcScat pf { a with fine_roughness := 0 } = .ok (r.1, [mu], r.2.2) ∧
      a.n_matrix = some nm ∧ InMedium a nm c ∧ c.structure_type = .none ∧ pf c = .ok (p2, cs2) ∧ mu_mie = densityOf a * fin cs2 := by
  obtain ⟨n, xe, ft, st, cs, hs, ht, hp, h1, h2⟩ := calcScat_inv h
  rcases h2 with ⟨hn, _⟩ | ⟨_, nm, p2, cs2, hnm, hp2, h3⟩
  · exact absurd hr hn
  · refine ⟨_, _, nm, mieCall a nm ft, p2, cs2, h3, ?_, hnm, ⟨rfl, rfl, rfl, rfl⟩, rfl, hp2, rfl⟩
    have e1 : sampleFor { a with fine_roughness := 0 } = sampleFor a := rfl
    have e2 : typesFor { a with fine_roughness := 0 } = typesFor a := rfl
    have e3 : mainCall { a with fine_roughness := 0 } n xe ft st = mainCall a n xe ft st := rfl
    have e4 : densityOf { a with fine_roughness := 0 } = densityOf a := rfl
    unfold calcScat
    simp only [e1, hs, e2, ht, bind, Except.bind, e3, hp, e4, lt_irrefl, if_false, pure, Except.pure, h1]

/-- C87.  Fine roughness without a matrix index is refused with ValueError, provided the rest succeeds. -/
theorem C87_fine_roughness_needs_matrix {P : Type} (pf : Call → Except PyErr (P × ℝ)) (a : Args) (hr : 0 < a.fine_roughness)
    (hm : a.n_matrix = none) {r : P × List XF × XF} (h : calcScat pf { a with fine_roughness := 0 } = .ok r) :
    calcScat pf a = .error .valueError := by
  obtain ⟨n, xe, ft, st, cs, hs, ht, hp, _, _⟩ := calcScat_inv h
  have e1 : sampleFor a = .ok (n, xe) := hs
  have e2 : typesFor a = .ok (ft, st) := ht
  have e3 : pf (mainCall a n xe ft st) = .ok (r.1, cs) := hp
  unfold calcScat
  simp only [e1, e2, bind, Except.bind, e3, hr, if_true, hm]

/-- C87, the part that holds: with `effective_medium_form` the absorption coefficient is that of the effective medium,
`4π Im(n_sample)/wavelen`.  Missing: the other case, refuted below. -/
theorem C87_absorption_partial {P : Type} (pf : Call → Except PyErr (P × ℝ)) (a : Args) (hw : a.wavelen ≠ 0)
    (hf : a.effective_medium_form = true) {r : P × List XF × XF} (h : calcScat pf a = .ok r) :
    r.2.2 = fin (4 * Real.pi * a.n_sample.im / a.wavelen) := by
  obtain ⟨n, xe, ft, st, cs, hs, _, _, h1, _⟩ := calcScat_inv h
  unfold sampleFor at hs
  simp only [hf, if_true, Except.ok.injEq, Prod.mk.injEq] at hs
  rw [h1, ← hs.1, Init.muScatAbs, fin_div _ hw]

/-- C87 is FALSE without `effective_medium_form`: the absorption coefficient is that of the bare matrix, so that absorbing particles in
a clear matrix do not absorb, although the returned value is documented as that of the sample as an effective medium. -/
theorem C87_absorption_refuted {P : Type} (pf : Call → Except PyErr (P × ℝ)) (a : Args) (hw : a.wavelen ≠ 0)
    (hf : a.effective_medium_form = false) {nm : ℂ} (hm : a.n_matrix = some nm) (hclear : nm.im = 0) {r : P × List XF × XF}
    (h : calcScat pf a = .ok r) : r.2.2 = fin 0 := by
  obtain ⟨n, xe, ft, st, cs, hs, _, _, h1, _⟩ := calcScat_inv h
  unfold sampleFor at hs
  simp only [hf, hm, Except.ok.injEq, Prod.mk.injEq, Bool.false_eq_true, if_false] at hs
  rw [h1, ← hs.1, Init.muScatAbs, fin_div _ hw, hclear]
  simp

/-- Non-vacuity of C87 -/
example (f s : Bool) : demoScat.wavelen ≠ 0 ∧ demoScat.n_matrix = some 1 ∧ (1 : ℂ).im = 0 ∧ ∃ r, calcScat (fun _ => .ok ((), 1))
      { demoScat with effective_medium_form := f, effective_medium_struct := s, fine_roughness := 1 / 3 } = .ok r :=
  ⟨by norm_num [demoScat], rfl, rfl, demoScat_ok f s (1 / 3)⟩
example : ∃ r, calcScat (fun _ => .ok ((), 1)) { { demoScat with n_matrix := none, fine_roughness := 1 / 3 } with fine_roughness := 0 } = .ok r := by
  simp [calcScat, sampleFor, typesFor, demoScat, bind, Except.bind, pure, Except.pure]

/-! ## C88 -/

/-- C88, the part that holds: a polydisperse calculation is refused with ValueError when the polydispersity index is missing or the
particle has several layers; a successful one uses the polydisperse form factor, and the polydisperse structure factor unless data are
given.  Missing: the second radius and the concentrations, refuted below. -/
theorem C88_polydisperse_checks_partial {P : Type} (pf : Call → Except PyErr (P × ℝ)) (a : Args) (hp : a.polydisperse = true)
    (hm : a.effective_medium_form = true ∨ a.n_matrix.isSome) :
    ((a.pdi = none ∨ 1 < a.n_particle.length) → calcScat pf a = .error .valueError) ∧
    ∀ r, calcScat pf a = .ok r → ∃ c cs, pf c = .ok (r.1, cs) ∧ c.form_type = some "polydisperse" ∧
      (c.structure_type = .str "polydisperse" ∨ (a.structure_type = .str "data" ∧ c.structure_type = .str "data")) := by
  constructor
  · intro h
    have hs : ∃ nx, sampleFor a = .ok nx := by
      unfold sampleFor
      cases hf : a.effective_medium_form <;> cases hn : a.n_matrix <;> simp_all
    obtain ⟨nx, hs⟩ := hs
    have ht : typesFor a = .error .valueError := by
      unfold typesFor
      rcases h with h | h
      · simp [hp, h]
      · by_cases h' : a.pdi.isNone <;> simp [hp, h, h']
    unfold calcScat
    simp only [hs, ht, bind, Except.bind]
  · intro r hr
    obtain ⟨n, xe, ft, st, cs, _, ht, hpf, _, _⟩ := calcScat_inv hr
    refine ⟨_, cs, hpf, ?_⟩
    unfold typesFor at ht
    rw [if_pos hp] at ht
    split at ht
    · exact (nomatch ht)
    · split at ht
      · exact (nomatch ht)
      · simp only [Except.ok.injEq, Prod.mk.injEq] at ht
        refine ⟨ht.1.symm, ?_⟩
        simp only [mainCall]
        rw [← ht.2]
        split
        · next h => exact Or.inr ⟨h, rfl⟩
        · exact Or.inl rfl

/-- C88 is FALSE of the second radius and the concentrations: leaving them out is not refused; the first radius and `[1, 0]` are used. -/
theorem C88_missing_species_refuted {P : Type} (pf : Call → Except PyErr (P × ℝ)) (a : Args) :
    calcScat pf { a with radius2 := none, concentration := none } =
      calcScat pf { a with radius2 := some a.radius, concentration := some (1, 0) } := by
  rfl

/-- Non-vacuity of C88: the refusal, and a polydisperse call that succeeds without second radius and concentrations. -/
example : calcScat (P := Unit) (fun _ => .ok ((), 1)) { demoScat with polydisperse := true } = .error .valueError :=
  (C88_polydisperse_checks_partial _ _ rfl (Or.inl rfl)).1 (Or.inl rfl)
example : ∃ r, calcScat (P := Unit) (fun _ => .ok ((), 1)) { demoScat with polydisperse := true, pdi := some (1 / 10, 1 / 10) } = .ok r := by
  simp [calcScat, sampleFor, typesFor, demoScat, bind, Except.bind, pure, Except.pure]

/-! ## C89 -/

/-- C89.  Without absorption and unpolarised, the total cross section is the trapezoid integral of the mean of the two differential
cross sections over the sphere, divided by `|k|²`; it is non-negative (positive if they are positive), and linear in them. -/
theorem C89_total_cross_section (integ : List ℝ → ℝ) (a : Args) (c : Call) (hc : c.cartesian = false) (hk : c.k.im = 0)
    (par perp : ℕ → ℝ) (hmin : 0 ≤ a.min_angle) (hmax : a.min_angle ≤ Real.pi) :
    let σ := crossSection integ c a.num_angles par perp (thetas a)
    σ = 2 * Real.pi / ‖c.k‖ ^ 2 * trapz a.num_angles (fun i => (par i + perp i) / 2 * Real.sin (thetas a i)) (thetas a) ∧
    ((∀ i, 0 ≤ par i) → (∀ i, 0 ≤ perp i) → 0 ≤ σ) ∧
    ∀ s : ℝ, crossSection integ c a.num_angles (fun i => s * par i) (fun i => s * perp i) (thetas a) = s * σ := by
  intro σ
  have hgen : ∀ u v : ℕ → ℝ, crossSection integ c a.num_angles u v (thetas a) =
      2 * Real.pi / ‖c.k‖ ^ 2 * trapz a.num_angles (fun i => (u i + v i) / 2 * Real.sin (thetas a i)) (thetas a) := by
    intro u v
    unfold crossSection integrateCS
    rw [if_neg (by simp [hc]), if_neg (by simp [hk])]
    have e : ∀ w : ℕ → ℝ, trapz a.num_angles (fun i => w i * (1 / ‖c.k‖ ^ 2) * Real.sin (thetas a i)) (thetas a) =
        1 / ‖c.k‖ ^ 2 * trapz a.num_angles (fun i => w i * Real.sin (thetas a i)) (thetas a) := by
      intro w
      rw [← trapz_const_mul]
      congr 1; funext i; ring
    have e2 : trapz a.num_angles (fun i => (u i + v i) / 2 * Real.sin (thetas a i)) (thetas a) =
        1 / 2 * (trapz a.num_angles (fun i => u i * Real.sin (thetas a i)) (thetas a) +
          trapz a.num_angles (fun i => v i * Real.sin (thetas a i)) (thetas a)) := by
      rw [← trapz_add, ← trapz_const_mul]
      congr 1; funext i; ring
    rw [e, e, e2]
    ring
  refine ⟨hgen par perp, ?_, ?_⟩
  · intro h1 h2
    rw [show σ = _ from hgen par perp]
    apply mul_nonneg (by positivity)
    apply trapz_nonneg
    · intro i hi; exact linspace_le hmax _ _ hi
    · intro i hi
      obtain ⟨l, u⟩ := linspace_mem hmax a.num_angles i hi
      exact mul_nonneg (by have := h1 i; have := h2 i; positivity)
        (Real.sin_nonneg_of_nonneg_of_le_pi (by unfold thetas; linarith) u)
  · intro s
    rw [hgen, show σ = _ from hgen par perp]
    have : (fun i => (s * par i + s * perp i) / 2 * Real.sin (thetas a i)) =
        fun i => s * ((par i + perp i) / 2 * Real.sin (thetas a i)) := by funext i; ring
    rw [this, trapz_const_mul]; ring

/-- C89.  In an absorbing polydisperse system the total cross section lies between the integrals over the surfaces of the two species,
for concentrations that add up to one, and is the common value for equal radii. -/
theorem C89_binary_absorbing (integ : List ℝ → ℝ) (c : Call) (num : ℕ) (par perp angles : ℕ → ℝ) (hc : c.cartesian = false)
    (hk : c.k.im ≠ 0) (hp : c.form_type = some "polydisperse") (h1 : 0 ≤ c.concentration.1) (h2 : 0 ≤ c.concentration.2)
    (hsum : c.concentration.1 + c.concentration.2 = 1) :
    let I1 := integ [outer c.diameters.1 / 2]
    let I2 := integ [outer c.diameters.2 / 2]
    let σ := crossSection integ c num par perp angles
    min I1 I2 ≤ σ ∧ σ ≤ max I1 I2 ∧ (c.diameters.1 = c.diameters.2 → σ = I1) := by
  intro I1 I2 σ
  have hσ : σ = I1 * c.concentration.1 + I2 * c.concentration.2 := by
    simp only [σ, crossSection, I1, I2]
    rw [if_neg (by simp [hc]), if_pos (by simpa using hk), if_pos hp]
  have e : c.concentration.2 = 1 - c.concentration.1 := by linarith
  refine ⟨?_, ?_, ?_⟩
  · rw [hσ]
    have a1 := mul_le_mul_of_nonneg_right (min_le_left I1 I2) h1
    have a2 := mul_le_mul_of_nonneg_right (min_le_right I1 I2) h2
    calc min I1 I2 = min I1 I2 * c.concentration.1 + min I1 I2 * c.concentration.2 := by rw [← mul_add, hsum, mul_one]
      _ ≤ _ := add_le_add a1 a2
  · rw [hσ]
    have a1 := mul_le_mul_of_nonneg_right (le_max_left I1 I2) h1
    have a2 := mul_le_mul_of_nonneg_right (le_max_right I1 I2) h2
    calc _ ≤ max I1 I2 * c.concentration.1 + max I1 I2 * c.concentration.2 := add_le_add a1 a2
      _ = max I1 I2 := by rw [← mul_add, hsum, mul_one]
  · intro h
    have : I2 = I1 := by simp only [I1, I2, h]
    rw [hσ, this, ← mul_add, hsum, mul_one]

/-- C89.  The phase function and the cross section of one call come from the same differential cross sections: the phase function at each
angle is their sum there relative to the total on the grid. -/
theorem C89_same_cross_sections (dcs : Call → Except PyErr ((ℕ → ℝ) × (ℕ → ℝ))) (integ : (ℕ → ℝ) → (ℕ → ℝ) → List ℝ → ℝ) (num : ℕ)
    (angles : ℕ → ℝ) (c : Call) {par perp : ℕ → ℝ} (h : dcs c = .ok (par, perp)) (hc : c.cartesian = false) (hk : c.k.im = 0)
    (hk0 : c.k ≠ 0) (hne : ∑ i : Fin num, (par i + perp i) ≠ 0) :
    ∃ p σ, phaseFunction dcs integ num angles c = .ok (p, σ) ∧
      (∀ i, p i = fin ((par i + perp i) / ∑ k : Fin num, (par k + perp k))) ∧
      σ * ‖c.k‖ ^ 2 = 2 * Real.pi * trapz num (fun i => (par i + perp i) / 2 * Real.sin (angles i)) angles := by
  have hk0 : ‖c.k‖ ≠ 0 := norm_ne_zero_iff.mpr hk0
  refine ⟨Init.phaseFunction (n := num) (fun i => par i) (fun i => perp i), crossSection (integ par perp) c num par perp angles, ?_, ?_, ?_⟩
  · simp only [phaseFunction, h, bind, Except.bind, pure, Except.pure]
  · intro i
    simp only [Init.phaseFunction]
    rw [fin_div _ hne]
  · unfold crossSection integrateCS
    rw [if_neg (by simp [hc]), if_neg (by simp [hk])]
    have e : ∀ w : ℕ → ℝ, trapz num (fun i => w i * (1 / ‖c.k‖ ^ 2) * Real.sin (angles i)) angles =
        1 / ‖c.k‖ ^ 2 * trapz num (fun i => w i * Real.sin (angles i)) angles := by
      intro w
      rw [← trapz_const_mul]
      congr 1; funext i; ring
    have e2 : trapz num (fun i => (par i + perp i) / 2 * Real.sin (angles i)) angles =
        1 / 2 * (trapz num (fun i => par i * Real.sin (angles i)) angles +
          trapz num (fun i => perp i * Real.sin (angles i)) angles) := by
      rw [← trapz_add, ← trapz_const_mul]
      congr 1; funext i; ring
    rw [e, e, e2]
    field_simp

/-- C89: in an absorbing sample of one size (per species) the cross section is that at the surface of the largest particle: at the radius of one of
the particles, with no particle (or layer, or species) larger. -/
theorem C89_absorbing_surface (integ : List ℝ → ℝ) (a : Args) (n : ℂ) (xe : Option (List ℂ)) (ft : Option String) (st : StructType) (num : ℕ)
    (par perp angles : ℕ → ℝ) (hk : n.im ≠ 0) (hw : a.wavelen ≠ 0) (hp : ft ≠ some "polydisperse") (hne : a.radius ≠ [])
    (hpos : ∀ r ∈ a.radius ++ a.radius2.getD a.radius, 0 < r) :
    ∃ R ∈ a.radius ++ a.radius2.getD a.radius, (∀ r ∈ a.radius ++ a.radius2.getD a.radius, r ≤ R) ∧
      crossSection integ (mainCall a n xe ft st) num par perp angles = integ [R] := by
  have key : ∀ l : List ℝ, (∀ r ∈ l, 0 < r) → (∀ r ∈ l, 2 * r ≤ outer (l.map (2 * ·))) ∧
      (outer (l.map (2 * ·)) = 0 ∨ ∃ r ∈ l, outer (l.map (2 * ·)) = 2 * r) := by
    intro l
    induction l with
    | nil => intro _; exact ⟨fun r hr => (nomatch hr), Or.inl rfl⟩
    | cons x l ih =>
      intro h
      obtain ⟨h1, h2⟩ := ih fun r hr => h r (List.mem_cons_of_mem _ hr)
      have e : outer ((x :: l).map (2 * ·)) = max (2 * x) (outer (l.map (2 * ·))) := rfl
      rw [e]
      refine ⟨fun r hr => ?_, ?_⟩
      · rcases List.mem_cons.mp hr with rfl | hr
        · exact le_max_left _ _
        · exact (h1 r hr).trans (le_max_right _ _)
      · rcases max_choice (2 * x) (outer (l.map (2 * ·))) with hm | hm <;> rw [hm]
        · exact Or.inr ⟨x, List.mem_cons_self, rfl⟩
        · rcases h2 with h2 | ⟨r, hr, h2⟩
          · exact Or.inl h2
          · exact Or.inr ⟨r, List.mem_cons_of_mem _ hr, h2⟩
  obtain ⟨a1, a2⟩ := key a.radius fun r hr => hpos r (List.mem_append_left _ hr)
  obtain ⟨b1, b2⟩ := key (a.radius2.getD a.radius) fun r hr => hpos r (List.mem_append_right _ hr)
  set A := outer (a.radius.map (2 * ·)) with hA
  set B := outer ((a.radius2.getD a.radius).map (2 * ·)) with hB
  have hval : crossSection integ (mainCall a n xe ft st) num par perp angles = integ [max A B / 2] := by
    have hd : distanceOf (mainCall a n xe ft st) = [max A B / 2] := by
      unfold distanceOf
      rw [if_neg (show ¬ (mainCall a n xe ft st).form_type = some "polydisperse" from hp)]
      rfl
    have hkk : 0 < |(mainCall a n xe ft st).k.im| := by
      refine abs_pos.mpr ?_
      have e : (mainCall a n xe ft st).k = ((2 * Real.pi / a.wavelen : ℝ) : ℂ) * n := by
        simp only [mainCall]; push_cast; ring
      rw [e, Complex.im_ofReal_mul]
      exact mul_ne_zero (div_ne_zero (by positivity) hw) hk
    unfold crossSection
    split
    · rw [hd]
    · rw [if_neg (show ¬ (mainCall a n xe ft st).form_type = some "polydisperse" from hp), hd]
  have hApos : 0 < A := by
    obtain ⟨r, hr⟩ := List.exists_mem_of_ne_nil _ hne
    have := a1 r hr
    linarith [hpos r (List.mem_append_left _ hr)]
  have hmem : ∃ R ∈ a.radius ++ a.radius2.getD a.radius, max A B = 2 * R := by
    rcases max_choice A B with hm | hm <;> rw [hm]
    · rcases a2 with h | ⟨r, hr, h⟩
      · exact absurd h hApos.ne'
      · exact ⟨r, List.mem_append_left _ hr, h⟩
    · rcases b2 with h | ⟨r, hr, h⟩
      · exact absurd h (lt_of_lt_of_le hApos (max_eq_right_iff.mp hm)).ne'
      · exact ⟨r, List.mem_append_right _ hr, h⟩
  obtain ⟨R, hR, hmax⟩ := hmem
  refine ⟨R, hR, fun r hr => ?_, by rw [hval, hmax]; congr 2; ring⟩
  rcases List.mem_append.mp hr with hr | hr
  · linarith [a1 r hr, le_max_left A B]
  · linarith [b1 r hr, le_max_right A B]

/-- Non-vacuity of C89: the call `calc_scat` makes for the example sample has a real non-zero wavevector; an absorbing binary one. -/
example : (mainCall demoScat (5 / 4) none none .none).cartesian = false ∧ (mainCall demoScat (5 / 4) none none .none).k.im = 0 ∧
    (mainCall demoScat (5 / 4) none none .none).k ≠ 0 ∧ 0 ≤ demoScat.min_angle ∧ demoScat.min_angle ≤ Real.pi := by
  have e : (mainCall demoScat (5 / 4) none none .none).k = ((5 * Real.pi : ℝ) : ℂ) := by
    simp only [mainCall, demoScat]
    push_cast
    ring
  refine ⟨rfl, by rw [e]; simp, ?_, by norm_num [demoScat], ?_⟩
  · rw [e]
    have := Real.pi_ne_zero
    exact_mod_cast mul_ne_zero (by norm_num) this
  · have := Real.pi_gt_three
    norm_num [demoScat]; linarith
example : (mainCall { demoScat with concentration := some (1 / 3, 2 / 3) } Complex.I none (some "polydisperse") .none).k.im ≠ 0 ∧
    (concentrationOf { demoScat with concentration := some (1 / 3, 2 / 3) }).1 +
    (concentrationOf { demoScat with concentration := some (1 / 3, 2 / 3) }).2 = 1 := by
  constructor
  · have e : (mainCall { demoScat with concentration := some (1 / 3, 2 / 3) } Complex.I none (some "polydisperse") .none).k =
        ((4 * Real.pi : ℝ) : ℂ) * Complex.I := by
      simp only [mainCall, demoScat]
      push_cast
      ring
    rw [e]
    simp [Real.pi_ne_zero]
  · norm_num [concentrationOf]

end Verif.Props
