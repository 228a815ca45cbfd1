import Verif.Props.AngleLaw
import Verif.Props.Traj
import Mathlib.Probability.Independence.Integration

/-!
# C107: directions after many scattering events, on average
-/

namespace Verif.Props

open MeasureTheory ProbabilityTheory Verif.Spec Verif.Traj XF

set_option linter.unusedSectionVars false

section walk

variable {Ω : Type} [mΩ : MeasurableSpace Ω] {P : Measure Ω} [IsProbabilityMeasure P] (X : ℕ × Fin 2 → Ω → ℝ)

/-- what is known when the angles in `S` are known -/
@[instance_reducible] private def sig (S : Set (ℕ × Fin 2)) : MeasurableSpace Ω := ⨆ x ∈ S, MeasurableSpace.comap (X x) inferInstance

/-- a bounded quantity determined by the angles in `S` -/
private def Obs (S : Set (ℕ × Fin 2)) (f : Ω → ℝ) : Prop := Measurable[sig X S] f ∧ ∃ C, ∀ ω, |f ω| ≤ C

variable {X}

private theorem sig_mono {S T : Set (ℕ × Fin 2)} (h : S ⊆ T) : sig X S ≤ sig X T := biSup_mono h

private theorem sig_le (hX : ∀ x, Measurable (X x)) (S : Set (ℕ × Fin 2)) : sig X S ≤ mΩ :=
  iSup₂_le fun x _ => (hX x).comap_le

private theorem Obs.mono {S T : Set (ℕ × Fin 2)} (h : S ⊆ T) {f : Ω → ℝ} (hf : Obs X S f) : Obs X T f :=
  ⟨hf.1.mono (sig_mono h) le_rfl, hf.2⟩

private theorem Obs.add {S : Set (ℕ × Fin 2)} {f g : Ω → ℝ} (hf : Obs X S f) (hg : Obs X S g) : Obs X S (fun ω => f ω + g ω) := by
  obtain ⟨hf1, C, hC⟩ := hf
  obtain ⟨hg1, D, hD⟩ := hg
  exact ⟨hf1.add hg1, C + D, fun ω => (abs_add_le _ _).trans (add_le_add (hC ω) (hD ω))⟩

private theorem Obs.mul {S : Set (ℕ × Fin 2)} {f g : Ω → ℝ} (hf : Obs X S f) (hg : Obs X S g) : Obs X S (fun ω => f ω * g ω) := by
  obtain ⟨hf1, C, hC⟩ := hf
  obtain ⟨hg1, D, hD⟩ := hg
  refine ⟨hf1.mul hg1, C * D, fun ω => ?_⟩
  rw [abs_mul]
  exact mul_le_mul (hC ω) (hD ω) (abs_nonneg _) ((abs_nonneg _).trans (hC ω))

private theorem Obs.neg {S : Set (ℕ × Fin 2)} {f : Ω → ℝ} (hf : Obs X S f) : Obs X S (fun ω => -f ω) := by
  obtain ⟨hf1, C, hC⟩ := hf
  exact ⟨hf1.neg, C, fun ω => by rw [abs_neg]; exact hC ω⟩

private theorem Obs.sub {S : Set (ℕ × Fin 2)} {f g : Ω → ℝ} (hf : Obs X S f) (hg : Obs X S g) : Obs X S (fun ω => f ω - g ω) := by
  have := hf.add hg.neg
  simpa only [sub_eq_add_neg] using this

private theorem Obs.const (S : Set (ℕ × Fin 2)) (c : ℝ) : Obs X S (fun _ => c) := ⟨measurable_const, |c|, fun _ => le_rfl⟩

private theorem Obs.integrable (hX : ∀ x, Measurable (X x)) {S : Set (ℕ × Fin 2)} {f : Ω → ℝ} (hf : Obs X S f) : Integrable f P := by
  obtain ⟨hf1, C, hC⟩ := hf
  exact Integrable.of_bound (hf1.mono (sig_le hX S) le_rfl).aestronglyMeasurable C (Filter.Eventually.of_forall hC)

private theorem Obs.angle {S : Set (ℕ × Fin 2)} {x : ℕ × Fin 2} (hx : x ∈ S) {f : ℝ → ℝ} (hf : Measurable f) {C : ℝ} (hC : ∀ t, |f t| ≤ C) :
    Obs X S (fun ω => f (X x ω)) := by
  refine ⟨?_, C, fun ω => hC _⟩
  have h1 : Measurable[MeasurableSpace.comap (X x) inferInstance] (X x) := comap_measurable _
  exact hf.comp (h1.mono (le_iSup₂_of_le x hx le_rfl) le_rfl)

/-- expectations of products of quantities determined by different angles -/
private theorem Obs.integral_mul (hX : ∀ x, Measurable (X x)) (hI : iIndepFun X P) {S T : Set (ℕ × Fin 2)} (hST : Disjoint S T)
    {f g : Ω → ℝ} (hf : Obs X S f) (hg : Obs X T g) : ∫ ω, f ω * g ω ∂P = (∫ ω, f ω ∂P) * ∫ ω, g ω ∂P := by
  have hind : Indep (sig X S) (sig X T) P := indep_iSup_of_disjoint (fun x => (hX x).comap_le) hI hST
  have : IndepFun f g P := by
    have h1 : MeasurableSpace.comap f inferInstance ≤ sig X S := hf.1.comap_le
    have h2 : MeasurableSpace.comap g inferInstance ≤ sig X T := hg.1.comap_le
    exact indep_of_indep_of_le_left (indep_of_indep_of_le_right hind h2) h1
  exact this.integral_fun_mul_eq_mul_integral (hf.integrable hX).aestronglyMeasurable (hg.integrable hX).aestronglyMeasurable

/-- moments of a walk on directions that rotates about fixed axes -/
theorem walk_moments (hX : ∀ x, Measurable (X x)) (hI : iIndepFun X P) (g c2 : ℝ)
    (hg : ∀ n, ∫ ω, Real.cos (X (n, 0) ω) ∂P = g) (hc2 : ∀ n, ∫ ω, Real.cos (X (n, 0) ω) ^ 2 ∂P = c2)
    (haz : ∀ n, ∫ ω, Real.cos (X (n, 1) ω) ∂P = 0 ∧ ∫ ω, Real.sin (X (n, 1) ω) ∂P = 0 ∧
      ∫ ω, Real.cos (X (n, 1) ω) ^ 2 ∂P = 1 / 2 ∧ ∫ ω, Real.cos (X (n, 1) ω) * Real.sin (X (n, 1) ω) ∂P = 0)
    (N : ℕ) (k : ℕ → Ω → V3) (hk0 : ∀ ω, k 0 ω = ⟨0, 0, 1⟩)
    (hk : ∀ n, n < N → ∀ ω, k (n + 1) ω = turn (Real.sin (X (n, 0) ω)) (Real.cos (X (n, 0) ω)) (Real.sin (X (n, 1) ω))
      (Real.cos (X (n, 1) ω)) (k n ω)) :
    (∀ n, n ≤ N → ∫ ω, (k n ω).x ∂P = 0 ∧ ∫ ω, (k n ω).y ∂P = 0 ∧ ∫ ω, (k n ω).z ∂P = g ^ n) ∧
    (∀ n, n < N → ∫ ω, V3.dot (k n ω) (k (n + 1) ω) ∂P = g * (1 / 3 + 2 / 3 * ((3 * c2 - 1) / 2) ^ n)) ∧
    (∀ n d, n + (d + 1) ≤ N →
      ∫ ω, V3.dot (k n ω) (k (n + (d + 1)) ω) ∂P = g ^ (d + 1) * (1 / 3 + 2 / 3 * ((3 * c2 - 1) / 2) ^ n)) := by
  -- angles known before event `n`, and together with the polar angle of event `n`
  let F : ℕ → Set (ℕ × Fin 2) := fun n => {x | x.1 < n}
  let G : ℕ → Set (ℕ × Fin 2) := fun n => {x | x.1 < n ∨ x = (n, 0)}
  have hFG : ∀ n, F n ⊆ G n := fun n x hx => Or.inl hx
  have hGF : ∀ n, G n ⊆ F (n + 1) := by
    rintro n x (hx | hx)
    · exact Nat.lt_succ_of_lt hx
    · rw [hx]; exact Nat.lt_succ_self n
  have ht : ∀ n, ((n, 0) : ℕ × Fin 2) ∈ G n := fun n => Or.inr rfl
  have hp : ∀ n, ((n, 1) : ℕ × Fin 2) ∈ F (n + 1) := fun n => Nat.lt_succ_self n
  have dF : ∀ n, Disjoint (F n) {((n, 0) : ℕ × Fin 2)} := fun n => by
    rw [Set.disjoint_singleton_right]; exact lt_irrefl n
  have dG : ∀ n, Disjoint (G n) {((n, 1) : ℕ × Fin 2)} := fun n => by
    rw [Set.disjoint_singleton_right]
    rintro (h | h)
    · exact lt_irrefl n h
    · have := congrArg Prod.snd h; simp at this
  have ocos : ∀ {S : Set (ℕ × Fin 2)} {x}, x ∈ S → Obs X S (fun ω => Real.cos (X x ω)) := fun hx =>
    Obs.angle hx Real.measurable_cos Real.abs_cos_le_one
  have osin : ∀ {S : Set (ℕ × Fin 2)} {x}, x ∈ S → Obs X S (fun ω => Real.sin (X x ω)) := fun hx =>
    Obs.angle hx Real.measurable_sin Real.abs_sin_le_one
  have hs2 : ∀ n, ∫ ω, Real.sin (X (n, 0) ω) ^ 2 ∂P = 1 - c2 := by
    intro n
    have : ∀ ω, Real.sin (X (n, 0) ω) ^ 2 = 1 - Real.cos (X (n, 0) ω) ^ 2 := fun ω => Real.sin_sq _
    simp only [this]
    have hi : Integrable (fun ω => Real.cos (X (n, 0) ω) ^ 2) P := by
      have := ((ocos (ht n)).mul (ocos (ht n))).integrable hX (P := P)
      simpa only [← sq] using this
    rw [integral_sub (integrable_const _) hi, hc2]; simp
  have hp2 : ∀ n, ∫ ω, Real.sin (X (n, 1) ω) ^ 2 ∂P = 1 / 2 := by
    intro n
    have : ∀ ω, Real.sin (X (n, 1) ω) ^ 2 = 1 - Real.cos (X (n, 1) ω) ^ 2 := fun ω => Real.sin_sq _
    simp only [this]
    have hi : Integrable (fun ω => Real.cos (X (n, 1) ω) ^ 2) P := by
      have := ((ocos (hp n)).mul (ocos (hp n))).integrable hX (P := P)
      simpa only [← sq] using this
    rw [integral_sub (integrable_const _) hi, (haz n).2.2.1]; norm_num
  -- components are bounded and determined by the earlier angles
  have hobs : ∀ n, n ≤ N → Obs X (F n) (fun ω => (k n ω).x) ∧ Obs X (F n) (fun ω => (k n ω).y) ∧ Obs X (F n) (fun ω => (k n ω).z) := by
    intro n
    induction n with
    | zero =>
      intro _
      simp only [hk0]
      exact ⟨Obs.const _ _, Obs.const _ _, Obs.const _ _⟩
    | succ n ih =>
      intro hn
      obtain ⟨h1, h2, h3⟩ := ih (by omega)
      have h1 := (h1.mono (hFG n)).mono (hGF n)
      have h2 := (h2.mono (hFG n)).mono (hGF n)
      have h3 := (h3.mono (hFG n)).mono (hGF n)
      have st := osin (hGF n (ht n))
      have ct := ocos (hGF n (ht n))
      have sp := osin (hp n)
      have cp := ocos (hp n)
      simp only [hk n (by omega), turn]
      exact ⟨(((h1.mul ct).add (h3.mul st)).mul cp).sub (h2.mul sp), (((h1.mul ct).add (h3.mul st)).mul sp).add (h2.mul cp),
        (h1.neg.mul st).add (h3.mul ct)⟩
  have hunit : ∀ n, n ≤ N → ∀ ω, (k n ω).x ^ 2 + (k n ω).y ^ 2 + (k n ω).z ^ 2 = 1 := by
    intro n
    induction n with
    | zero => intro _ ω; rw [hk0]; norm_num
    | succ n ih =>
      intro hn ω
      rw [hk n (by omega), ← ih (by omega) ω]
      simp only [turn]
      have a := Real.sin_sq_add_cos_sq (X (n, 0) ω)
      have b := Real.sin_sq_add_cos_sq (X (n, 1) ω)
      linear_combination ((k n ω).x ^ 2 + (k n ω).z ^ 2) * a +
        (((k n ω).x * Real.cos (X (n, 0) ω) + (k n ω).z * Real.sin (X (n, 0) ω)) ^ 2 + (k n ω).y ^ 2) * b
  -- all moments together
  have key : ∀ n, n ≤ N → ∫ ω, (k n ω).x ∂P = 0 ∧ ∫ ω, (k n ω).y ∂P = 0 ∧ ∫ ω, (k n ω).z ∂P = g ^ n ∧
      ∫ ω, (k n ω).x * (k n ω).z ∂P = 0 ∧ ∫ ω, (k n ω).x * (k n ω).x ∂P = ∫ ω, (k n ω).y * (k n ω).y ∂P ∧
      ∫ ω, (k n ω).z * (k n ω).z ∂P = 1 / 3 + 2 / 3 * ((3 * c2 - 1) / 2) ^ n := by
    intro n
    induction n with
    | zero => intro _; simp [hk0]; norm_num
    | succ n ih =>
      intro hn
      obtain ⟨ex, ey, ez, exz, exy, ezz⟩ := ih (by omega)
      obtain ⟨ox, oy, oz⟩ := hobs n (by omega)
      obtain ⟨zc, zs, zcc, zcs⟩ := haz n
      have gx := ox.mono (hFG n)
      have gy := oy.mono (hFG n)
      have gz := oz.mono (hFG n)
      have st := osin (ht n)
      have ct := ocos (ht n)
      have st' := osin (Set.mem_singleton ((n, 0) : ℕ × Fin 2))
      have ct' := ocos (Set.mem_singleton ((n, 0) : ℕ × Fin 2))
      have sp' := osin (Set.mem_singleton ((n, 1) : ℕ × Fin 2))
      have cp' := ocos (Set.mem_singleton ((n, 1) : ℕ × Fin 2))
      have oA := (gx.mul ct).add (gz.mul st)
      have oz' := (gx.neg.mul st).add (gz.mul ct)
      simp only [hk n (by omega), turn]
      refine ⟨?_, ?_, ?_, ?_, ?_, ?_⟩
      · have i1 := (oA.mono (hGF n)).mul (ocos (hp n))
        have i2 := (gy.mono (hGF n)).mul (osin (hp n))
        rw [integral_sub (i1.integrable hX) (i2.integrable hX), oA.integral_mul hX hI (dG n) cp', gy.integral_mul hX hI (dG n) sp', zc, zs]
        ring
      · have i1 := (oA.mono (hGF n)).mul (osin (hp n))
        have i2 := (gy.mono (hGF n)).mul (ocos (hp n))
        rw [integral_add (i1.integrable hX) (i2.integrable hX), oA.integral_mul hX hI (dG n) sp', gy.integral_mul hX hI (dG n) cp', zc, zs]
        ring
      · have i1 := gx.neg.mul st
        have i2 := gz.mul ct
        rw [integral_add (i1.integrable hX) (i2.integrable hX), ox.neg.integral_mul hX hI (dF n) st', oz.integral_mul hX hI (dF n) ct', hg, ez, integral_neg, ex]
        ring
      · have e : ∀ ω, (((k n ω).x * Real.cos (X (n, 0) ω) + (k n ω).z * Real.sin (X (n, 0) ω)) * Real.cos (X (n, 1) ω) - (k n ω).y * Real.sin (X (n, 1) ω)) *
            (-(k n ω).x * Real.sin (X (n, 0) ω) + (k n ω).z * Real.cos (X (n, 0) ω)) =
            (((k n ω).x * Real.cos (X (n, 0) ω) + (k n ω).z * Real.sin (X (n, 0) ω)) * (-(k n ω).x * Real.sin (X (n, 0) ω) + (k n ω).z * Real.cos (X (n, 0) ω))) * Real.cos (X (n, 1) ω) -
            ((k n ω).y * (-(k n ω).x * Real.sin (X (n, 0) ω) + (k n ω).z * Real.cos (X (n, 0) ω))) * Real.sin (X (n, 1) ω) := fun ω => by ring
        simp only [e]
        have i1 := oA.mul oz'
        have i2 := gy.mul oz'
        rw [integral_sub (((i1.mono (hGF n)).mul (ocos (hp n))).integrable hX) (((i2.mono (hGF n)).mul (osin (hp n))).integrable hX),
          i1.integral_mul hX hI (dG n) cp', i2.integral_mul hX hI (dG n) sp', zc, zs]
        ring
      · -- both equal half of the sum of squares
        have half : ∀ (a b : Ω → ℝ), Obs X (G n) a → Obs X (G n) b → ∀ (c s : Ω → ℝ), Obs X {((n, 1) : ℕ × Fin 2)} c →
            Obs X {((n, 1) : ℕ × Fin 2)} s → ∫ ω, c ω * c ω ∂P = 1 / 2 → ∫ ω, s ω * s ω ∂P = 1 / 2 → ∫ ω, c ω * s ω ∂P = 0 →
            ∫ ω, (a ω * c ω + b ω * s ω) * (a ω * c ω + b ω * s ω) ∂P = (∫ ω, a ω * a ω ∂P + ∫ ω, b ω * b ω ∂P) / 2 := by
          intro a b ha hb c s hc hs h1 h2 h3
          have e : ∀ ω, (a ω * c ω + b ω * s ω) * (a ω * c ω + b ω * s ω) =
              (a ω * a ω) * (c ω * c ω) + (b ω * b ω) * (s ω * s ω) + (2 * (a ω * b ω)) * (c ω * s ω) := fun ω => by ring
          have hsub : ∀ {f}, Obs X {((n, 1) : ℕ × Fin 2)} f → Obs X (F (n + 1)) f := fun hf =>
            hf.mono (Set.singleton_subset_iff.mpr (hp n))
          have i1 := ((ha.mul ha).mono (hGF n)).mul (hsub (hc.mul hc))
          have i2 := ((hb.mul hb).mono (hGF n)).mul (hsub (hs.mul hs))
          have o3 := (Obs.const (X := X) (G n) 2).mul (ha.mul hb)
          have i3 := (o3.mono (hGF n)).mul (hsub (hc.mul hs))
          simp only [e]
          rw [integral_add ((i1.add i2).integrable hX) (i3.integrable hX), integral_add (i1.integrable hX) (i2.integrable hX),
            (ha.mul ha).integral_mul hX hI (dG n) (hc.mul hc), (hb.mul hb).integral_mul hX hI (dG n) (hs.mul hs),
            o3.integral_mul hX hI (dG n) (hc.mul hs), h1, h2, h3]
          ring
        have h1 : ∫ ω, Real.cos (X (n, 1) ω) * Real.cos (X (n, 1) ω) ∂P = 1 / 2 := by simpa only [← sq] using zcc
        have h2 : ∫ ω, Real.sin (X (n, 1) ω) * Real.sin (X (n, 1) ω) ∂P = 1 / 2 := by simpa only [← sq] using hp2 n
        have e1 := half _ _ oA gy.neg _ _ cp' sp' h1 h2 zcs
        have e2 := half _ _ oA gy _ _ sp' cp' h2 h1 (by simpa only [mul_comm] using zcs)
        have r1 : ∀ ω, ((k n ω).x * Real.cos (X (n, 0) ω) + (k n ω).z * Real.sin (X (n, 0) ω)) * Real.cos (X (n, 1) ω) - (k n ω).y * Real.sin (X (n, 1) ω) =
          ((k n ω).x * Real.cos (X (n, 0) ω) + (k n ω).z * Real.sin (X (n, 0) ω)) * Real.cos (X (n, 1) ω) + -(k n ω).y * Real.sin (X (n, 1) ω) := fun ω => by ring
        simp only [r1]
        rw [e1, e2]
        simp only [neg_mul_neg]
      · have e : ∀ ω, (-(k n ω).x * Real.sin (X (n, 0) ω) + (k n ω).z * Real.cos (X (n, 0) ω)) *
            (-(k n ω).x * Real.sin (X (n, 0) ω) + (k n ω).z * Real.cos (X (n, 0) ω)) =
            ((k n ω).x * (k n ω).x) * (Real.sin (X (n, 0) ω) * Real.sin (X (n, 0) ω)) + ((k n ω).z * (k n ω).z) * (Real.cos (X (n, 0) ω) * Real.cos (X (n, 0) ω)) +
              (-2 * ((k n ω).x * (k n ω).z)) * (Real.sin (X (n, 0) ω) * Real.cos (X (n, 0) ω)) := fun ω => by ring
        have o3 := (Obs.const (X := X) (F n) (-2)).mul (ox.mul oz)
        have i1 := (gx.mul gx).mul (st.mul st)
        have i2 := (gz.mul gz).mul (ct.mul ct)
        have i3 := (o3.mono (hFG n)).mul (st.mul ct)
        have hs' : ∫ ω, Real.sin (X (n, 0) ω) * Real.sin (X (n, 0) ω) ∂P = 1 - c2 := by simpa only [← sq] using hs2 n
        have hc' : ∫ ω, Real.cos (X (n, 0) ω) * Real.cos (X (n, 0) ω) ∂P = c2 := by simpa only [← sq] using hc2 n
        have hsum : ∫ ω, (k n ω).x * (k n ω).x ∂P + ∫ ω, (k n ω).y * (k n ω).y ∂P + ∫ ω, (k n ω).z * (k n ω).z ∂P = 1 := by
          rw [← integral_add ((ox.mul ox).integrable hX) ((oy.mul oy).integrable hX),
            ← integral_add (((ox.mul ox).add (oy.mul oy)).integrable hX) ((oz.mul oz).integrable hX)]
          have : ∀ ω, (k n ω).x * (k n ω).x + (k n ω).y * (k n ω).y + (k n ω).z * (k n ω).z = 1 := fun ω => by
            rw [← hunit n (by omega) ω]; ring
          simp [this]
        simp only [e]
        rw [integral_add ((i1.add i2).integrable hX) (i3.integrable hX), integral_add (i1.integrable hX) (i2.integrable hX),
          (ox.mul ox).integral_mul hX hI (dF n) (st'.mul st'), (oz.mul oz).integral_mul hX hI (dF n) (ct'.mul ct'),
          o3.integral_mul hX hI (dF n) (st'.mul ct'), integral_const_mul, exz, hs', hc']
        rw [← exy, ezz] at hsum
        rw [ezz, show ∫ ω, (k n ω).x * (k n ω).x ∂P = (1 - (1 / 3 + 2 / 3 * ((3 * c2 - 1) / 2) ^ n)) / 2 by linarith, pow_succ]
        ring
  -- earlier and later components
  have lag : ∀ n d, n + d ≤ N → ∫ ω, (k n ω).z * (k (n + d) ω).x ∂P = 0 ∧
      ∫ ω, (k n ω).z * (k (n + d) ω).z ∂P = g ^ d * (1 / 3 + 2 / 3 * ((3 * c2 - 1) / 2) ^ n) := by
    intro n d
    induction d with
    | zero =>
      intro hn
      obtain ⟨-, -, -, exz, -, ezz⟩ := key n hn
      refine ⟨?_, ?_⟩
      · simpa only [add_zero, mul_comm] using exz
      · simpa only [add_zero, pow_zero, one_mul] using ezz
    | succ d ih =>
      intro hn
      obtain ⟨lx, lz⟩ := ih (by omega)
      obtain ⟨zc, zs, zcc, zcs⟩ := haz (n + d)
      have hsub : F n ⊆ F (n + d) := fun x hx => lt_of_lt_of_le hx (Nat.le_add_right n d)
      have oz := (hobs n (by omega)).2.2.mono hsub
      obtain ⟨mx, my, mz⟩ := hobs (n + d) (by omega)
      have gx := mx.mono (hFG (n + d))
      have gy := my.mono (hFG (n + d))
      have gz := mz.mono (hFG (n + d))
      have hz := oz.mono (hFG (n + d))
      have st := osin (ht (n + d))
      have ct := ocos (ht (n + d))
      have st' := osin (Set.mem_singleton ((n + d, 0) : ℕ × Fin 2))
      have ct' := ocos (Set.mem_singleton ((n + d, 0) : ℕ × Fin 2))
      have sp' := osin (Set.mem_singleton ((n + d, 1) : ℕ × Fin 2))
      have cp' := ocos (Set.mem_singleton ((n + d, 1) : ℕ × Fin 2))
      have oA := (gx.mul ct).add (gz.mul st)
      have hk' := fun ω => hk (n + d) (by omega) ω
      rw [← Nat.add_assoc]
      simp only [hk', turn]
      refine ⟨?_, ?_⟩
      · have e : ∀ ω, (k n ω).z * (((k (n + d) ω).x * Real.cos (X (n + d, 0) ω) + (k (n + d) ω).z * Real.sin (X (n + d, 0) ω)) * Real.cos (X (n + d, 1) ω) -
            (k (n + d) ω).y * Real.sin (X (n + d, 1) ω)) =
            ((k n ω).z * ((k (n + d) ω).x * Real.cos (X (n + d, 0) ω) + (k (n + d) ω).z * Real.sin (X (n + d, 0) ω))) * Real.cos (X (n + d, 1) ω) -
            ((k n ω).z * (k (n + d) ω).y) * Real.sin (X (n + d, 1) ω) := fun ω => by ring
        simp only [e]
        have o1 := hz.mul oA
        have o2 := hz.mul gy
        rw [integral_sub (((o1.mono (hGF _)).mul (ocos (hp _))).integrable hX) (((o2.mono (hGF _)).mul (osin (hp _))).integrable hX),
          o1.integral_mul hX hI (dG _) cp', o2.integral_mul hX hI (dG _) sp', zc, zs]
        ring
      · have e : ∀ ω, (k n ω).z * (-(k (n + d) ω).x * Real.sin (X (n + d, 0) ω) + (k (n + d) ω).z * Real.cos (X (n + d, 0) ω)) =
            -((k n ω).z * (k (n + d) ω).x) * Real.sin (X (n + d, 0) ω) + ((k n ω).z * (k (n + d) ω).z) * Real.cos (X (n + d, 0) ω) := fun ω => by ring
        simp only [e]
        have o1 := (oz.mul mx).neg
        have o2 := oz.mul mz
        rw [integral_add (((hz.mul gx).neg.mul st).integrable hX) (((hz.mul gz).mul ct).integrable hX),
          o1.integral_mul hX hI (dF _) st', o2.integral_mul hX hI (dF _) ct', integral_neg, lx, lz, hg]
        ring
  refine ⟨fun n hn => ⟨(key n hn).1, (key n hn).2.1, (key n hn).2.2.1⟩, fun n hn => ?_, fun n d hn => ?_⟩
  rotate_left
  · obtain ⟨zc, zs, -, -⟩ := haz (n + d)
    have hsub : F n ⊆ F (n + d) := fun x hx => lt_of_lt_of_le hx (Nat.le_add_right n d)
    obtain ⟨nx, ny, nz⟩ := hobs n (by omega)
    obtain ⟨mx, my, mz⟩ := hobs (n + d) (by omega)
    have hx := (nx.mono hsub).mono (hFG (n + d))
    have hy := (ny.mono hsub).mono (hFG (n + d))
    have hz := (nz.mono hsub).mono (hFG (n + d))
    have gx := mx.mono (hFG (n + d))
    have gy := my.mono (hFG (n + d))
    have gz := mz.mono (hFG (n + d))
    have st := osin (ht (n + d))
    have ct := ocos (ht (n + d))
    have sp' := osin (Set.mem_singleton ((n + d, 1) : ℕ × Fin 2))
    have cp' := ocos (Set.mem_singleton ((n + d, 1) : ℕ × Fin 2))
    have oA := (gx.mul ct).add (gz.mul st)
    have hl := (lag n (d + 1) hn).2
    rw [← Nat.add_assoc] at hl ⊢
    have e : ∀ ω, V3.dot (k n ω) (k (n + d + 1) ω) =
        ((k n ω).x * ((k (n + d) ω).x * Real.cos (X (n + d, 0) ω) + (k (n + d) ω).z * Real.sin (X (n + d, 0) ω)) + (k n ω).y * (k (n + d) ω).y) * Real.cos (X (n + d, 1) ω) +
        ((k n ω).y * ((k (n + d) ω).x * Real.cos (X (n + d, 0) ω) + (k (n + d) ω).z * Real.sin (X (n + d, 0) ω)) - (k n ω).x * (k (n + d) ω).y) * Real.sin (X (n + d, 1) ω) +
        (k n ω).z * (k (n + d + 1) ω).z := by
      intro ω
      rw [hk (n + d) (by omega)]
      simp only [V3.dot, turn]
      ring
    have o1 := (hx.mul oA).add (hy.mul gy)
    have o2 := (hy.mul oA).sub (hx.mul gy)
    have i1 := (o1.mono (hGF _)).mul (ocos (hp (n + d)))
    have i2 := (o2.mono (hGF _)).mul (osin (hp (n + d)))
    have i3 := (hz.mono (hGF _)).mul (hobs (n + d + 1) (by omega)).2.2
    simp only [e]
    rw [integral_add ((i1.add i2).integrable hX) (i3.integrable hX), integral_add (i1.integrable hX) (i2.integrable hX),
      o1.integral_mul hX hI (dG _) cp', o2.integral_mul hX hI (dG _) sp', zc, zs, hl]
    ring
  obtain ⟨ex, ey, ez, exz, exy, ezz⟩ := key n hn.le
  obtain ⟨ox, oy, oz⟩ := hobs n hn.le
  obtain ⟨zc, zs, zcc, zcs⟩ := haz n
  have gx := ox.mono (hFG n)
  have gy := oy.mono (hFG n)
  have gz := oz.mono (hFG n)
  have st := osin (ht n)
  have ct := ocos (ht n)
  have st' := osin (Set.mem_singleton ((n, 0) : ℕ × Fin 2))
  have ct' := ocos (Set.mem_singleton ((n, 0) : ℕ × Fin 2))
  have sp' := osin (Set.mem_singleton ((n, 1) : ℕ × Fin 2))
  have cp' := ocos (Set.mem_singleton ((n, 1) : ℕ × Fin 2))
  have oA := (gx.mul ct).add (gz.mul st)
  have e : ∀ ω, V3.dot (k n ω) (k (n + 1) ω) =
      (((k n ω).x * Real.cos (X (n, 0) ω) + (k n ω).z * Real.sin (X (n, 0) ω)) * (k n ω).x + (k n ω).y * (k n ω).y) * Real.cos (X (n, 1) ω) +
      (((k n ω).x * Real.cos (X (n, 0) ω) + (k n ω).z * Real.sin (X (n, 0) ω)) * (k n ω).y - (k n ω).y * (k n ω).x) * Real.sin (X (n, 1) ω) +
      (-((k n ω).x * (k n ω).z) * Real.sin (X (n, 0) ω) + ((k n ω).z * (k n ω).z) * Real.cos (X (n, 0) ω)) := by
    intro ω
    rw [hk n hn]
    simp only [V3.dot, turn]
    ring
  have o1 := (oA.mul gx).add (gy.mul gy)
  have o2 := (oA.mul gy).sub (gy.mul gx)
  have i1 := (o1.mono (hGF n)).mul (ocos (hp n))
  have i2 := (o2.mono (hGF n)).mul (osin (hp n))
  have i3 := (gx.mul gz).neg.mul st
  have i4 := (gz.mul gz).mul ct
  simp only [e]
  rw [integral_add ((i1.add i2).integrable hX) ((i3.add i4).integrable hX), integral_add (i1.integrable hX) (i2.integrable hX),
    integral_add (i3.integrable hX) (i4.integrable hX), o1.integral_mul hX hI (dG n) cp', o2.integral_mul hX hI (dG n) sp',
    (ox.mul oz).neg.integral_mul hX hI (dF n) st', (oz.mul oz).integral_mul hX hI (dF n) ct', zc, zs, integral_neg, exz, ezz, hg]
  ring

/-- the same for turns about the axes the photon carries: the mean direction after the events `i, ..., i + d - 1` -/
theorem frame_moments (hX : ∀ x, Measurable (X x)) (hI : iIndepFun X P) (g : ℝ)
    (hg : ∀ n, ∫ ω, Real.cos (X (n, 0) ω) ∂P = g)
    (haz : ∀ n, ∫ ω, Real.cos (X (n, 1) ω) ∂P = 0 ∧ ∫ ω, Real.sin (X (n, 1) ω) ∂P = 0) (d i : ℕ) (v : Ω → V3)
    (hv : ∀ ω, v ω = localFrame ((List.range' i d).map fun n => (Real.sin (X (n, 0) ω), Real.cos (X (n, 0) ω),
      Real.sin (X (n, 1) ω), Real.cos (X (n, 1) ω))) ⟨0, 0, 1⟩) :
    ∫ ω, (v ω).z ∂P = g ^ d := by
  have ocos : ∀ {S : Set (ℕ × Fin 2)} {x}, x ∈ S → Obs X S (fun ω => Real.cos (X x ω)) := fun hx =>
    Obs.angle hx Real.measurable_cos Real.abs_cos_le_one
  have osin : ∀ {S : Set (ℕ × Fin 2)} {x}, x ∈ S → Obs X S (fun ω => Real.sin (X x ω)) := fun hx =>
    Obs.angle hx Real.measurable_sin Real.abs_sin_le_one
  let F : ℕ → Set (ℕ × Fin 2) := fun n => {x | n ≤ x.1}
  let G : ℕ → Set (ℕ × Fin 2) := fun n => {x | n + 1 ≤ x.1 ∨ x = (n, 0)}
  have hFG : ∀ n, F (n + 1) ⊆ G n := fun n x hx => Or.inl hx
  have hGF : ∀ n, G n ⊆ F n := by
    rintro n x (hx | hx)
    · exact (Nat.le_succ n).trans hx
    · rw [hx]; exact le_refl n
  have ht : ∀ n, ((n, 0) : ℕ × Fin 2) ∈ G n := fun n => Or.inr rfl
  have hp : ∀ n, ((n, 1) : ℕ × Fin 2) ∈ F n := fun n => le_refl n
  have dF : ∀ n, Disjoint (F (n + 1)) {((n, 0) : ℕ × Fin 2)} := fun n => by
    rw [Set.disjoint_singleton_right]; exact fun h => absurd h (Nat.not_succ_le_self n)
  have dG : ∀ n, Disjoint (G n) {((n, 1) : ℕ × Fin 2)} := fun n => by
    rw [Set.disjoint_singleton_right]
    rintro (h | h)
    · exact Nat.not_succ_le_self n h
    · have := congrArg Prod.snd h; simp at this
  have main : ∀ d i (v : Ω → V3), (∀ ω, v ω = localFrame ((List.range' i d).map fun n => (Real.sin (X (n, 0) ω), Real.cos (X (n, 0) ω),
      Real.sin (X (n, 1) ω), Real.cos (X (n, 1) ω))) ⟨0, 0, 1⟩) →
      Obs X (F i) (fun ω => (v ω).x) ∧ Obs X (F i) (fun ω => (v ω).y) ∧ Obs X (F i) (fun ω => (v ω).z) ∧
      ∫ ω, (v ω).x ∂P = 0 ∧ ∫ ω, (v ω).z ∂P = g ^ d := by
    intro d
    induction d with
    | zero =>
      intro i v hv
      simp only [hv, List.range'_zero, List.map_nil, localFrame, id]
      exact ⟨Obs.const _ _, Obs.const _ _, Obs.const _ _, by simp, by simp⟩
    | succ d ih =>
      intro i v hv
      obtain ⟨w, hw⟩ : ∃ w : Ω → V3, ∀ ω, w ω = localFrame ((List.range' (i + 1) d).map fun n => (Real.sin (X (n, 0) ω), Real.cos (X (n, 0) ω),
        Real.sin (X (n, 1) ω), Real.cos (X (n, 1) ω))) ⟨0, 0, 1⟩ := ⟨_, fun _ => rfl⟩
      obtain ⟨mx, my, mz, ex, ez⟩ := ih (i + 1) w hw
      have hvw : ∀ ω, v ω = turn (Real.sin (X (i, 0) ω)) (Real.cos (X (i, 0) ω)) (Real.sin (X (i, 1) ω)) (Real.cos (X (i, 1) ω)) (w ω) := by
        intro ω
        rw [hv, hw, List.range'_succ, List.map_cons]
        rfl
      have gx := mx.mono (hFG i)
      have gy := my.mono (hFG i)
      have gz := mz.mono (hFG i)
      have st := osin (ht i)
      have ct := ocos (ht i)
      have st' := osin (Set.mem_singleton ((i, 0) : ℕ × Fin 2))
      have ct' := ocos (Set.mem_singleton ((i, 0) : ℕ × Fin 2))
      have sp' := osin (Set.mem_singleton ((i, 1) : ℕ × Fin 2))
      have cp' := ocos (Set.mem_singleton ((i, 1) : ℕ × Fin 2))
      have oA := (gx.mul ct).add (gz.mul st)
      have i1 := (oA.mono (hGF i)).mul (ocos (hp i))
      have i2 := (gy.mono (hGF i)).mul (osin (hp i))
      have j1 := (oA.mono (hGF i)).mul (osin (hp i))
      have j2 := (gy.mono (hGF i)).mul (ocos (hp i))
      have l1 := gx.neg.mul st
      have l2 := gz.mul ct
      simp only [hvw, turn]
      refine ⟨i1.sub i2, j1.add j2, (l1.add l2).mono (hGF i), ?_, ?_⟩
      · rw [integral_sub (i1.integrable hX) (i2.integrable hX), oA.integral_mul hX hI (dG i) cp', gy.integral_mul hX hI (dG i) sp',
          (haz i).1, (haz i).2]
        ring
      · rw [integral_add (l1.integrable hX) (l2.integrable hX), mx.neg.integral_mul hX hI (dF i) st', mz.integral_mul hX hI (dF i) ct', hg,
          ez, integral_neg, ex]
        ring
  exact (main d i v hv).2.2.2.2

end walk

variable {nt : ℕ}

/-- the average of `f θ` over the scattered light: phase function weighted by solid angle, on the grid of polar angles -/
noncomputable def meanOver {n : ℕ} (p : Fin (n + 1) → ℝ) (m : ℝ) (f : ℝ → ℝ) : ℝ :=
  (∑ k, p k * Real.sin (gridAngle m Real.pi n k) * f (gridAngle m Real.pi n k)) / ∑ k, p k * Real.sin (gridAngle m Real.pi n k)

/-- sampled angles as functions of the uniform numbers -/
theorem ang_eq {Ω : Type} {n : ℕ} {U : (ℕ × Fin nt) × Fin 2 → Ω → ℝ} {nevents : ℕ} {p : Fin (n + 1) → ℝ} {m : ℝ}
    {ang : Ω → Angles nt}
    (hok : ∀ ω, sampleAnglesRng1 nevents p m (fun i j => U ((i, j), 0) ω) (fun i j => U ((i, j), 1) ω) = .ok (ang ω)) (ω : Ω) :
    (∀ i j, (ang ω).theta i j = gridAngle m Real.pi n (choiceIndex (probTheta p m) (U ((i, j), 0) ω))) ∧
    (∀ i j, (ang ω).phi i j = 2 * Real.pi * U ((i, j), 1) ω) ∧
    (ang ω).sintheta = (fun i j => Real.sin ((ang ω).theta i j)) ∧ (ang ω).costheta = (fun i j => Real.cos ((ang ω).theta i j)) ∧
    (ang ω).sinphi = (fun i j => Real.sin ((ang ω).phi i j)) ∧ (ang ω).cosphi = fun i j => Real.cos ((ang ω).phi i j) := by
  have h := hok ω
  simp only [sampleAnglesRng1, sampleAngles1] at h
  split at h
  · injection h with h
    rw [← h]
    refine ⟨fun i j => ?_, fun i j => rfl, rfl, rfl, rfl, rfl⟩
    simp only [mkAngles, linspace_grid]
  · cases h

/-- all statements about correlations, for the directions the code produces and for those of the photon's own frame -/
theorem directions {Ω : Type} [MeasurableSpace Ω] (P : Measure Ω) [IsProbabilityMeasure P] {n : ℕ}
    (U : (ℕ × Fin nt) × Fin 2 → Ω → ℝ) (hU : UniformDraws P U) (nevents : ℕ) (p : Fin (n + 1) → ℝ) (m : ℝ)
    (hp : ∀ k, 0 ≤ p k) (hm0 : 0 ≤ m) (hm1 : m < Real.pi)
    (hpos : 0 < ∑ k, p k * Real.sin (gridAngle m Real.pi n k)) (ang : Ω → Angles nt)
    (hok : ∀ ω, sampleAnglesRng1 nevents p m (fun i j => U ((i, j), 0) ω) (fun i j => U ((i, j), 1) ω) = .ok (ang ω))
    (kn : ℕ → Fin nt → V3) (j : Fin nt) (hkn : kn 0 j = ⟨0, 0, 1⟩) (k : ℕ → Ω → V3)
    (hk : ∀ e ω, k e ω = scatter nevents kn (ang ω).sintheta (ang ω).costheta (ang ω).sinphi (ang ω).cosphi e j) :
    (∀ e, e < nevents → ∫ ω, (k e ω).x ∂P = 0 ∧ ∫ ω, (k e ω).y ∂P = 0 ∧ ∫ ω, (k e ω).z ∂P = meanOver p m Real.cos ^ e) ∧
    (∀ e, e + 1 < nevents → ∫ ω, V3.dot (k e ω) (k (e + 1) ω) ∂P =
      meanOver p m Real.cos * (1 / 3 + 2 / 3 * ((3 * meanOver p m (fun t => Real.cos t ^ 2) - 1) / 2) ^ e)) ∧
    (∀ e d, e + (d + 1) < nevents → ∫ ω, V3.dot (k e ω) (k (e + (d + 1)) ω) ∂P =
      meanOver p m Real.cos ^ (d + 1) * (1 / 3 + 2 / 3 * ((3 * meanOver p m (fun t => Real.cos t ^ 2) - 1) / 2) ^ e)) ∧
    (∀ e d, ∫ ω, (localFrame ((List.range' e d).map fun i => ((ang ω).sintheta i j, (ang ω).costheta i j, (ang ω).sinphi i j,
      (ang ω).cosphi i j)) ⟨0, 0, 1⟩).z ∂P = meanOver p m Real.cos ^ d) := by
  have hpi := Real.pi_pos
  obtain ⟨hind, hth, hph⟩ := C105_angle_distribution P U hU nevents p m hp hm0 hm1 hpos ang hok
  have hA := ang_eq hok
  obtain ⟨K, hK⟩ : ∃ K : ℝ → Fin (n + 1), K = choiceIndex (probTheta p m) := ⟨_, rfl⟩
  have hmK : Measurable K := hK ▸ measurable_choiceIndex _
  simp only [← hK] at hA
  let X : ℕ × Fin 2 → Ω → ℝ := fun x ω => if x.2 = 0 then (ang ω).theta x.1 j else (ang ω).phi x.1 j
  have hX0 : ∀ e, X (e, 0) = fun ω => gridAngle m Real.pi n (K (U ((e, j), 0) ω)) := fun e => funext fun ω => (hA ω).1 e j
  have hX1 : ∀ e, X (e, 1) = fun ω => 2 * Real.pi * U ((e, j), 1) ω := fun e => funext fun ω => (hA ω).2.1 e j
  have hX : ∀ x, Measurable (X x) := by
    rintro ⟨e, b⟩
    fin_cases b
    · exact (hX0 e) ▸ (measurable_of_finite (gridAngle m Real.pi n)).comp (hmK.comp (hU.meas _))
    · exact (hX1 e) ▸ (hU.meas _).const_mul _
  have hI : iIndepFun X P := by
    have hinj : Function.Injective fun x : ℕ × Fin 2 => ((x.1, j), x.2) := by
      rintro ⟨a, b⟩ ⟨c, d⟩ h
      simp only [Prod.mk.injEq] at h
      exact Prod.ext h.1.1 h.2
    exact hind.precomp hinj
  have hmean : ∀ (f : ℝ → ℝ) (e : ℕ), ∫ ω, f (X (e, 0) ω) ∂P = meanOver p m f := by
    intro f e
    rw [hX0]
    have hmm := hmK.comp (hU.meas ((e, j), 0))
    have h1 := integral_map (μ := P) hmm.aemeasurable (f := fun k => f (gridAngle m Real.pi n k))
      (measurable_of_finite _).aestronglyMeasurable
    have hprob : IsProbabilityMeasure (P.map (K ∘ U ((e, j), 0))) := Measure.isProbabilityMeasure_map hmm.aemeasurable
    have h2 : ∀ k, (P.map (K ∘ U ((e, j), 0))).real {k} = p k * Real.sin (gridAngle m Real.pi n k) / ∑ k', p k' * Real.sin (gridAngle m Real.pi n k') := by
      intro k
      rw [map_measureReal_apply hmm (measurableSet_singleton k), ← hth e j k]
      congr 1
      ext ω
      simp only [Set.mem_preimage, Set.mem_singleton_iff, Set.mem_ofPred_eq, Function.comp]
      rw [(hA ω).1, (gridAngle_inj hm1 n).eq_iff]
    have h3 := integral_fintype (μ := P.map (K ∘ U ((e, j), 0))) (f := fun k => f (gridAngle m Real.pi n k)) Integrable.of_finite
    simp only [Function.comp] at h1
    rw [← h1]
    refine h3.trans ?_
    simp only [h2, smul_eq_mul, meanOver, Finset.sum_div]
    exact Finset.sum_congr rfl fun k _ => by ring
  have haz : ∀ (f : ℝ → ℝ), Continuous f → ∀ e, ∫ ω, f (X (e, 1) ω) ∂P = (2 * Real.pi)⁻¹ * ∫ x in (0 : ℝ)..(2 * Real.pi), f x := by
    intro f hf e
    rw [hX1]
    have h1 := integral_map (μ := P) (hU.meas ((e, j), 1)).aemeasurable (f := fun u => f (2 * Real.pi * u))
      (by fun_prop : Measurable fun u => f (2 * Real.pi * u)).aestronglyMeasurable
    rw [← h1, hU.law, unif, integral_Ico_eq_integral_Ioc, ← intervalIntegral.integral_of_le zero_le_one,
      intervalIntegral.integral_comp_mul_left f (by positivity)]
    simp
  have hloop : ∀ ω, ∀ e, e < nevents - 1 → k (e + 1) ω = turn (Real.sin (X (e, 0) ω)) (Real.cos (X (e, 0) ω)) (Real.sin (X (e, 1) ω))
      (Real.cos (X (e, 1) ω)) (k e ω) := by
    intro ω e he
    obtain ⟨-, -, a, b, c, d⟩ := hA ω
    rw [hk, hk]
    have := (scatter_loop kn (ang ω).sintheta (ang ω).costheta (ang ω).sinphi (ang ω).cosphi (nevents - 1)).2.1 e he j
    refine Eq.trans this ?_
    rw [congrFun (congrFun a e) j, congrFun (congrFun b e) j, congrFun (congrFun c e) j, congrFun (congrFun d e) j]
    rfl
  have hzero : ∀ ω, k 0 ω = ⟨0, 0, 1⟩ := by
    intro ω
    rw [hk, ← hkn]
    exact congrFun (scatter_loop kn (ang ω).sintheta (ang ω).costheta (ang ω).sinphi (ang ω).cosphi (nevents - 1)).1 j
  have haz4 : ∀ e, ∫ ω, Real.cos (X (e, 1) ω) ∂P = 0 ∧ ∫ ω, Real.sin (X (e, 1) ω) ∂P = 0 ∧
      ∫ ω, Real.cos (X (e, 1) ω) ^ 2 ∂P = 1 / 2 ∧ ∫ ω, Real.cos (X (e, 1) ω) * Real.sin (X (e, 1) ω) ∂P = 0 := by
    intro e
    refine ⟨?_, ?_, ?_, ?_⟩
    · rw [haz Real.cos Real.continuous_cos]; simp
    · rw [haz Real.sin Real.continuous_sin]; simp
    · rw [haz (fun x => Real.cos x ^ 2) (by fun_prop), integral_cos_sq]; simp; field_simp
    · rw [haz (fun x => Real.cos x * Real.sin x) (by fun_prop)]
      have := integral_sin_mul_cos₁ (a := 0) (b := 2 * Real.pi)
      simp only [mul_comm (Real.cos _)]
      rw [this]; simp
  obtain ⟨r1, r2, r3⟩ := walk_moments hX hI _ _ (hmean Real.cos) (hmean fun t => Real.cos t ^ 2) haz4
    (nevents - 1) k hzero (fun e he ω => hloop ω e he)
  refine ⟨fun e he => r1 e (by omega), fun e he => r2 e (by omega), fun e d he => r3 e d (by omega), fun e d => ?_⟩
  refine frame_moments hX hI _ (hmean Real.cos) (fun e => ⟨(haz4 e).1, (haz4 e).2.1⟩) d e _ fun ω => ?_
  obtain ⟨-, -, a, b, c, d⟩ := hA ω
  rw [a, b, c, d]
  rfl

/-- C107, the part that holds.  With independent uniform numbers from the generator and light incident along z, the average
direction after `e` scattering events is `(0, 0, g^e)`, where `g` is the average cosine of the scattering angle over the
phase function (weighted by solid angle): what independent scattering with that phase function gives. -/
theorem C107_mean_direction_partial {Ω : Type} [MeasurableSpace Ω] (P : Measure Ω) [IsProbabilityMeasure P] {n : ℕ}
    (U : (ℕ × Fin nt) × Fin 2 → Ω → ℝ) (hU : UniformDraws P U) (nevents : ℕ) (p : Fin (n + 1) → ℝ) (m : ℝ)
    (hp : ∀ k, 0 ≤ p k) (hm0 : 0 ≤ m) (hm1 : m < Real.pi)
    (hpos : 0 < ∑ k, p k * Real.sin (gridAngle m Real.pi n k)) (ang : Ω → Angles nt)
    (hok : ∀ ω, sampleAnglesRng1 nevents p m (fun i j => U ((i, j), 0) ω) (fun i j => U ((i, j), 1) ω) = .ok (ang ω))
    (kn : ℕ → Fin nt → V3) (j : Fin nt) (hkn : kn 0 j = ⟨0, 0, 1⟩) (k : ℕ → Ω → V3)
    (hk : ∀ e ω, k e ω = scatter nevents kn (ang ω).sintheta (ang ω).costheta (ang ω).sinphi (ang ω).cosphi e j)
    (e : ℕ) (he : e < nevents) :
    ∫ ω, (k e ω).x ∂P = 0 ∧ ∫ ω, (k e ω).y ∂P = 0 ∧ ∫ ω, (k e ω).z ∂P = meanOver p m Real.cos ^ e :=
  (directions P U hU nevents p m hp hm0 hm1 hpos ang hok kn j hkn k hk).1 e he

/-- C107 is false of the code for successive directions.  Independent scattering with the phase function gives
`E[k_e · k_(e+1)] = g` at every event; the code gives `g (1/3 + 2/3 ((3 c - 1)/2)^e)` with `c` the average squared cosine,
which is nearer to zero at every event but the first (and tends to `g/3`): light forgets its direction too quickly. -/
theorem C107_persistence_refuted {Ω : Type} [MeasurableSpace Ω] (P : Measure Ω) [IsProbabilityMeasure P] {n : ℕ}
    (U : (ℕ × Fin nt) × Fin 2 → Ω → ℝ) (hU : UniformDraws P U) (nevents : ℕ) (p : Fin (n + 1) → ℝ) (m : ℝ)
    (hp : ∀ k, 0 ≤ p k) (hm0 : 0 ≤ m) (hm1 : m < Real.pi)
    (hpos : 0 < ∑ k, p k * Real.sin (gridAngle m Real.pi n k)) (ang : Ω → Angles nt)
    (hok : ∀ ω, sampleAnglesRng1 nevents p m (fun i j => U ((i, j), 0) ω) (fun i j => U ((i, j), 1) ω) = .ok (ang ω))
    (kn : ℕ → Fin nt → V3) (j : Fin nt) (hkn : kn 0 j = ⟨0, 0, 1⟩) (k : ℕ → Ω → V3)
    (hk : ∀ e ω, k e ω = scatter nevents kn (ang ω).sintheta (ang ω).costheta (ang ω).sinphi (ang ω).cosphi e j)
    (e : ℕ) (he : e + 1 < nevents) :
    (∫ ω, V3.dot (k e ω) (k (e + 1) ω) ∂P =
      meanOver p m Real.cos * (1 / 3 + 2 / 3 * ((3 * meanOver p m (fun t => Real.cos t ^ 2) - 1) / 2) ^ e)) ∧
    (1 ≤ e → meanOver p m Real.cos ≠ 0 → |∫ ω, V3.dot (k e ω) (k (e + 1) ω) ∂P| < |meanOver p m Real.cos|) := by
  have hD := (directions P U hU nevents p m hp hm0 hm1 hpos ang hok kn j hkn k hk).2.1 e he
  refine ⟨hD, fun he1 hg => ?_⟩
  rw [hD, abs_mul]
  have hs : ∀ k, 0 ≤ p k * Real.sin (gridAngle m Real.pi n k) := fun k => by
    rw [← linspace_grid]; exact mul_nonneg (hp k) (sin_linspace_nonneg hm0 hm1.le k.isLt)
  set c := meanOver p m (fun t => Real.cos t ^ 2) with hc
  have hc0 : 0 ≤ c := by
    rw [hc, meanOver]
    exact div_nonneg (Finset.sum_nonneg fun k _ => mul_nonneg (hs k) (sq_nonneg _)) hpos.le
  have hc1 : c < 1 := by
    rw [hc, meanOver, div_lt_one hpos]
    obtain ⟨k, -, hk0⟩ : ∃ k ∈ Finset.univ, 0 < p k * Real.sin (gridAngle m Real.pi n k) := by
      by_contra hno
      push Not at hno
      exact absurd (Finset.sum_nonpos hno) (not_le.mpr hpos)
    refine Finset.sum_lt_sum (fun k _ => mul_le_of_le_one_right (hs k) (Real.cos_sq_le_one _)) ⟨k, Finset.mem_univ k, ?_⟩
    have hsin : Real.sin (gridAngle m Real.pi n k) ≠ 0 := fun h => by rw [h, mul_zero] at hk0; exact lt_irrefl _ hk0
    have : Real.cos (gridAngle m Real.pi n k) ^ 2 < 1 := by
      have h1 := Real.sin_sq_add_cos_sq (gridAngle m Real.pi n k)
      have h2 : 0 < Real.sin (gridAngle m Real.pi n k) ^ 2 := by positivity
      linarith
    exact mul_lt_of_lt_one_right hk0 this
  have hb : |(3 * c - 1) / 2| < 1 := by rw [abs_lt]; constructor <;> linarith
  have hbe : |((3 * c - 1) / 2) ^ e| < 1 := by rw [abs_pow]; exact pow_lt_one₀ (abs_nonneg _) hb (by omega)
  have hlow : -(1 / 2) ≤ ((3 * c - 1) / 2) ^ e := by
    by_cases hpos' : 0 ≤ (3 * c - 1) / 2
    · have := pow_nonneg hpos' e; linarith
    · have h1 : |((3 * c - 1) / 2)| ≤ 1 / 2 := by rw [abs_le]; constructor <;> linarith
      have h2 : |((3 * c - 1) / 2) ^ e| ≤ 1 / 2 := by
        rw [abs_pow]
        calc |((3 * c - 1) / 2)| ^ e ≤ |((3 * c - 1) / 2)| ^ 1 := pow_le_pow_of_le_one (abs_nonneg _) hb.le he1
          _ ≤ 1 / 2 := by rw [pow_one]; exact h1
      exact (abs_le.mp h2).1
  refine mul_lt_of_lt_one_right (abs_pos.mpr hg) ?_
  rw [abs_lt]
  constructor
  · linarith
  · have := (abs_lt.mp hbe).2; linarith

/-- Non-vacuity of C107, and how large the effect is: every scattering is by exactly 60 degrees, yet the average cosine of the
angle between the directions before and after the second scattering is 1/8, not 1/2. -/
example : ∃ (Ω : Type) (_ : MeasurableSpace Ω) (P : Measure Ω) (U : (ℕ × Fin 4) × Fin 2 → Ω → ℝ) (ang : Ω → Angles 4),
    IsProbabilityMeasure P ∧ UniformDraws P U ∧
    (∀ ω, sampleAnglesRng1 (n := 3) 5 (fun k => if k = 1 then 1 else 0) 0 (fun i j => U ((i, j), 0) ω)
      (fun i j => U ((i, j), 1) ω) = .ok (ang ω)) ∧
    (∀ e j, P.real {ω | (ang ω).theta e j = Real.pi / 3} = 1) ∧
    ∫ ω, V3.dot (scatter 5 (fun _ _ => ⟨0, 0, 1⟩) (ang ω).sintheta (ang ω).costheta (ang ω).sinphi (ang ω).cosphi 1 0)
      (scatter 5 (fun _ _ => ⟨0, 0, 1⟩) (ang ω).sintheta (ang ω).costheta (ang ω).sinphi (ang ω).cosphi 2 0) ∂P = 1 / 8 := by
  obtain ⟨Ω, mΩ, P, W, hP, hW⟩ := uniformDraws_exist ((ℕ × Fin 4) × Fin 2)
  obtain ⟨p, hpd⟩ : ∃ p : Fin 4 → ℝ, p = fun k => if k = 1 then 1 else 0 := ⟨_, rfl⟩
  have hp : ∀ k, 0 ≤ p k := fun k => by simp only [hpd]; split <;> norm_num
  have g1 : gridAngle 0 Real.pi 3 1 = Real.pi / 3 := by norm_num [gridAngle]
  have hs3 : 0 < Real.sin (Real.pi / 3) := Real.sin_pos_of_pos_of_lt_pi (by positivity) (by linarith [Real.pi_pos])
  have hsum : ∀ f : ℝ → ℝ, ∑ k, p k * Real.sin (gridAngle 0 Real.pi 3 k) * f (gridAngle 0 Real.pi 3 k) =
      Real.sin (Real.pi / 3) * f (Real.pi / 3) := by
    intro f
    rw [Finset.sum_eq_single 1 (fun k _ hk => by simp only [hpd, if_neg hk]; ring) (fun h => absurd (Finset.mem_univ _) h), g1]
    simp [hpd]
  have hsum1 : ∑ k, p k * Real.sin (gridAngle 0 Real.pi 3 k) = Real.sin (Real.pi / 3) := by
    have := hsum fun _ => 1
    simpa using this
  have hpos : 0 < ∑ k, p k * Real.sin (gridAngle 0 Real.pi 3 k) := by rw [hsum1]; exact hs3
  have hmean : ∀ f : ℝ → ℝ, meanOver p 0 f = f (Real.pi / 3) := by
    intro f; rw [meanOver, hsum, hsum1]; field_simp
  have hok : choiceOk (probTheta p 0) := by
    refine choiceOk_of (w := fun i : Fin 4 => solidWeight p 0 i * 2 * Real.pi) (fun i => ?_) ?_
    · have := sin_linspace_nonneg (le_refl 0) Real.pi_pos.le i.isLt
      have h2 : 0 ≤ solidWeight p 0 i := mul_nonneg (hp i) this
      have := Real.pi_pos
      positivity
    · rw [← Finset.sum_mul, ← Finset.sum_mul]
      have hsw : ∀ i, solidWeight p 0 i = p i * Real.sin (gridAngle 0 Real.pi 3 i) := fun i => by rw [solidWeight, linspace_grid]
      simp only [hsw]
      exact mul_pos (mul_pos hpos two_pos) Real.pi_pos
  have hrun' : ∀ ω, ∃ a, sampleAnglesRng1 (n := 3) 5 p 0 (fun i j => W ((i, j), 0) ω) (fun i j => W ((i, j), 1) ω) = .ok a :=
    fun ω => ⟨_, if_pos (Or.inr hok)⟩
  choose ang hrun using hrun'
  refine ⟨Ω, mΩ, P, W, ang, hP, hW, hpd ▸ hrun, fun e j => ?_, ?_⟩
  · have := (C105_angle_distribution P W hW 5 p 0 hp le_rfl Real.pi_pos hpos ang hrun).2.1 e j 1
    rw [g1, hsum1] at this
    rw [this]
    have hp1 : p 1 = 1 := by rw [hpd]; exact if_pos rfl
    rw [hp1, one_mul]
    exact div_self hs3.ne'
  · have := (C107_persistence_refuted P W hW 5 p 0 hp le_rfl Real.pi_pos hpos ang hrun (fun _ _ => ⟨0, 0, 1⟩) 0 rfl
      (fun e ω => scatter 5 (fun _ _ => ⟨0, 0, 1⟩) (ang ω).sintheta (ang ω).costheta (ang ω).sinphi (ang ω).cosphi e 0)
      (fun _ _ => rfl) 1 (by norm_num)).1
    refine this.trans ?_
    rw [hmean, hmean, Real.cos_pi_div_three]
    norm_num

end Verif.Props
