import Mathlib.Probability.StrongLaw
import Verif.Props.Ballistic

/-!
# C112: more trajectories give the right answer
-/

namespace Verif.Props

open MeasureTheory ProbabilityTheory Verif.Spec Verif.Traj Verif.Simulation Verif.Exits Verif.Init XF

variable {num : ℕ}

/-- fraction of the `nt` trajectories that `calc_refl_trans` finds transmitted in their first event -/
noncomputable def ballisticFraction (nev : ℕ) (d : DetArgs) {nt : ℕ} (t : Trajs nt) : ℝ :=
  (Finset.univ.filter fun j => transEvent nev d t j = 1).card / nt

/-- 1 for the first steps of at least `D` -/
private noncomputable def hit (mu D u : ℝ) : ℝ := {u : ℝ | D ≤ -Real.log (1 - u) / mu}.indicator (fun _ => 1) u

private theorem hit_meas (mu D : ℝ) : Measurable (hit mu D) :=
  Measurable.indicator measurable_const (measurableSet_le measurable_const (by fun_prop))

private theorem hit_mean {mu D : ℝ} (hmu : 0 < mu) (hD : 0 ≤ D) : ∫ u, hit mu D u ∂unif = Real.exp (-(mu * D)) := by
  have h := mean_exp_tail (a := 0) hmu le_rfl hD
  simp only [zero_mul, neg_zero, Real.exp_zero, add_zero, div_self hmu.ne', one_mul] at h
  exact h

private theorem hit_sq (mu D u : ℝ) : hit mu D u ^ 2 = hit mu D u := by
  unfold hit
  by_cases h : u ∈ {u : ℝ | D ≤ -Real.log (1 - u) / mu}
  · rw [Set.indicator_of_mem h]; norm_num
  · rw [Set.indicator_of_notMem h]; norm_num

private theorem hit_bound (mu D u : ℝ) : ‖hit mu D u‖ ≤ 1 := by
  unfold hit
  refine (norm_indicator_le_norm_self _ _).trans ?_
  norm_num

private theorem fraction_eq {nt : ℕ} {a : Args nt} {S : Sampling nt num} {d : DetArgs} {θ mu mua : ℝ} (H : FilmRun a S d)
    (C : Collimated a S θ d.n_medium d.n_sample mu mua) (hθ : |Real.sin θ| < 1) (hL : 0 < d.thickness) (hlow : d.z_low = 0)
    {nev : ℕ} {t : Trajs nt} (ht : simulate (nev + 1) a S = .ok t) (u : ℕ → ℝ) (hu : ∀ j : Fin nt, S.rand_step 0 j = u j) :
    ballisticFraction nev d t = (∑ i ∈ Finset.range nt,
      hit mu (d.thickness / Real.sqrt (1 - (d.n_medium / d.n_sample * Real.sin θ) ^ 2)) (u i)) / nt := by
  unfold ballisticFraction
  congr 1
  rw [Finset.sum_range fun i => hit mu (d.thickness / Real.sqrt (1 - (d.n_medium / d.n_sample * Real.sin θ) ^ 2)) (u i),
    Finset.card_filter, Nat.cast_sum]
  refine Finset.sum_congr rfl fun j _ => ?_
  have h1 := (trans_first_iff H C hθ hL hlow ht j).2
  rw [hu] at h1
  unfold hit
  by_cases h : transEvent nev d t j = 1
  · rw [if_pos h, Set.indicator_of_mem (by exact h1.mp h)]; norm_num
  · rw [if_neg h, Set.indicator_of_notMem (by exact fun hh => h (h1.mpr hh))]; norm_num

/-- C112.  **More trajectories give the right answer.**  A smooth film lit at one angle of incidence is simulated with more and
more trajectories, drawn from one stream of independent uniform numbers.  With probability one the fraction of trajectories
found transmitted without scattering converges to Beer's law, `exp(-mu L / c)`. -/
theorem C112_ballistic_converges {Ω : Type} [MeasurableSpace Ω] (P : Measure Ω) [IsProbabilityMeasure P]
    (U : ℕ × ℕ → Ω → ℝ) (hU : UniformDraws P U) (a : (nt : ℕ) → Ω → Args (nt + 1)) (S : (nt : ℕ) → Ω → Sampling (nt + 1) num)
    (d : DetArgs) (hS : ∀ nt ω i (j : Fin (nt + 1)), (S nt ω).rand_step i j = U (i, j) ω)
    (H : ∀ nt ω, FilmRun (a nt ω) (S nt ω) d) (θ mu mua : ℝ)
    (C : ∀ nt ω, Collimated (a nt ω) (S nt ω) θ d.n_medium d.n_sample mu mua) (hθ : |Real.sin θ| < 1)
    (hL : 0 < d.thickness) (hlow : d.z_low = 0) (nev : ℕ) (t : (nt : ℕ) → Ω → Trajs (nt + 1))
    (ht : ∀ nt ω, simulate (nev + 1) (a nt ω) (S nt ω) = .ok (t nt ω)) :
    ∀ᵐ ω ∂P, Filter.Tendsto (fun nt => ballisticFraction nev d (t nt ω)) Filter.atTop
      (nhds (Real.exp (-(mu * (d.thickness / Real.sqrt (1 - (d.n_medium / d.n_sample * Real.sin θ) ^ 2)))))) := by
  have : Nonempty Ω := by
    by_contra h
    rw [not_nonempty_iff] at h
    have := measure_univ (μ := P)
    rw [Set.univ_eq_empty_iff.mpr h, measure_empty] at this
    exact zero_ne_one this
  obtain ⟨ω0⟩ := this
  have hmu : 0 < mu := (C 0 ω0).scat ▸ (H 0 ω0).mu_scat
  have hc := (trans_first_iff (H 0 ω0) (C 0 ω0) hθ hL hlow (ht 0 ω0) 0).1
  have hfrac := fun nt ω => fraction_eq (H nt ω) (C nt ω) hθ hL hlow (ht nt ω) (fun i => U (0, i) ω) (fun j => hS nt ω 0 j)
  obtain ⟨D, hD⟩ : ∃ D, D = d.thickness / Real.sqrt (1 - (d.n_medium / d.n_sample * Real.sin θ) ^ 2) := ⟨_, rfl⟩
  have hD0 : 0 ≤ D := hD ▸ (div_pos hL hc).le
  rw [← hD]
  simp only [← hD] at hfrac
  have hlaw : ∀ i, P.map (fun ω => hit mu D (U (0, i) ω)) = unif.map (hit mu D) := by
    intro i
    rw [← hU.law (0, i), Measure.map_map (hit_meas mu D) (hU.meas _)]; rfl
  have hmeas : ∀ i, Measurable (fun ω => hit mu D (U (0, i) ω)) := fun i => (hit_meas mu D).comp (hU.meas _)
  have hsl := strong_law_ae_real (μ := P) (fun i ω => hit mu D (U (0, i) ω))
    (Integrable.of_bound (hmeas 0).aestronglyMeasurable 1 (Filter.Eventually.of_forall fun ω => hit_bound _ _ _))
    (fun i j hij => ((hU.indep.indepFun (i := (0, i)) (j := (0, j)) (by simpa using hij)).comp (hit_meas mu D) (hit_meas mu D)))
    (fun i => ⟨(hmeas i).aemeasurable, (hmeas 0).aemeasurable, by rw [hlaw, hlaw]⟩)
  have hmean : ∫ ω, hit mu D (U (0, 0) ω) ∂P = Real.exp (-(mu * D)) := by
    rw [← hit_mean hmu hD0, ← hU.law (0, 0), integral_map (hU.meas _).aemeasurable (hit_meas mu D).aestronglyMeasurable]
  filter_upwards [hsl] with ω hω
  rw [hmean] at hω
  have := hω.comp (Filter.tendsto_add_atTop_nat 1)
  refine this.congr fun nt => ?_
  rw [hfrac nt ω]
  rfl

/-- C112, the error bar of a run: with `nt` trajectories the fraction has mean `p = exp(-mu L / c)` (no bias, for every `nt`)
and variance `p (1 - p) / nt`, so its standard deviation shrinks as `1 / sqrt(nt)`. -/
theorem C112_ballistic_error {Ω : Type} [MeasurableSpace Ω] (P : Measure Ω) [IsProbabilityMeasure P] {nt : ℕ}
    (U : ℕ × Fin nt → Ω → ℝ) (hU : UniformDraws P U) (a : Ω → Args nt) (S : Ω → Sampling nt num) (d : DetArgs)
    (hS : ∀ ω i j, (S ω).rand_step i j = U (i, j) ω) (H : ∀ ω, FilmRun (a ω) (S ω) d) (θ mu mua : ℝ)
    (C : ∀ ω, Collimated (a ω) (S ω) θ d.n_medium d.n_sample mu mua) (hθ : |Real.sin θ| < 1)
    (hL : 0 < d.thickness) (hlow : d.z_low = 0) (nev : ℕ) (t : Ω → Trajs nt)
    (ht : ∀ ω, simulate (nev + 1) (a ω) (S ω) = .ok (t ω)) :
    let p := Real.exp (-(mu * (d.thickness / Real.sqrt (1 - (d.n_medium / d.n_sample * Real.sin θ) ^ 2))))
    ∫ ω, ballisticFraction nev d (t ω) ∂P = p ∧ ∫ ω, (ballisticFraction nev d (t ω) - p) ^ 2 ∂P = p * (1 - p) / nt := by
  intro p
  have : Nonempty Ω := by
    by_contra h
    rw [not_nonempty_iff] at h
    have := measure_univ (μ := P)
    rw [Set.univ_eq_empty_iff.mpr h, measure_empty] at this
    exact zero_ne_one this
  obtain ⟨ω0⟩ := this
  have hnt : 0 < nt := (H ω0).nt_pos
  have hntR : (0 : ℝ) < nt := by exact_mod_cast hnt
  have hmu : 0 < mu := (C ω0).scat ▸ (H ω0).mu_scat
  have hc := (trans_first_iff (H ω0) (C ω0) hθ hL hlow (ht ω0) ⟨0, hnt⟩).1
  have hfrac := fun ω => fraction_eq (H ω) (C ω) hθ hL hlow (ht ω) (fun i => if h : i < nt then U (0, ⟨i, h⟩) ω else 0)
    (fun j => by rw [hS, dif_pos j.2])
  obtain ⟨D, hD⟩ : ∃ D, D = d.thickness / Real.sqrt (1 - (d.n_medium / d.n_sample * Real.sin θ) ^ 2) := ⟨_, rfl⟩
  have hD0 : 0 ≤ D := hD ▸ (div_pos hL hc).le
  have hp : p = Real.exp (-(mu * D)) := by rw [hD]
  simp only [← hD] at hfrac
  have hfr : ∀ ω, ballisticFraction nev d (t ω) = (∑ j : Fin nt, hit mu D (U (0, j) ω)) / nt := by
    intro ω
    rw [hfrac ω, Finset.sum_range]
    congr 1
    refine Finset.sum_congr rfl fun j _ => ?_
    rw [dif_pos j.2]
  have hmeas : ∀ j : Fin nt, Measurable (fun ω => hit mu D (U (0, j) ω)) := fun j => (hit_meas mu D).comp (hU.meas _)
  have hmem : ∀ j : Fin nt, MemLp (fun ω => hit mu D (U (0, j) ω)) 2 P := fun j =>
    MemLp.of_bound (hmeas j).aestronglyMeasurable 1 (Filter.Eventually.of_forall fun ω => hit_bound _ _ _)
  have hint : ∀ j : Fin nt, Integrable (fun ω => hit mu D (U (0, j) ω)) P := fun j => (hmem j).integrable (by norm_num)
  have hmean : ∀ j : Fin nt, ∫ ω, hit mu D (U (0, j) ω) ∂P = p := by
    intro j
    rw [hp, ← hit_mean hmu hD0, ← hU.law (0, j), integral_map (hU.meas _).aemeasurable (hit_meas mu D).aestronglyMeasurable]
  have hvar1 : ∀ j : Fin nt, variance (fun ω => hit mu D (U (0, j) ω)) P = p * (1 - p) := by
    intro j
    rw [variance_eq_sub (hmem j)]
    have : (fun ω => hit mu D (U (0, j) ω)) ^ 2 = fun ω => hit mu D (U (0, j) ω) := by
      funext ω; exact hit_sq _ _ _
    rw [this, hmean]
    ring
  have hind : Set.Pairwise (↑(Finset.univ : Finset (Fin nt))) fun i j =>
      IndepFun (fun ω => hit mu D (U (0, i) ω)) (fun ω => hit mu D (U (0, j) ω)) P := fun i _ j _ hij =>
    (hU.indep.indepFun (i := (0, i)) (j := (0, j)) (by simpa using hij)).comp (hit_meas mu D) (hit_meas mu D)
  have hm : ∫ ω, ballisticFraction nev d (t ω) ∂P = p := by
    simp only [hfr]
    rw [integral_div, integral_finsetSum _ fun j _ => hint j]
    simp only [hmean, Finset.sum_const, Finset.card_univ, Fintype.card_fin, nsmul_eq_mul]
    field_simp
  refine ⟨hm, ?_⟩
  have hsumvar : variance (∑ j : Fin nt, fun ω => hit mu D (U (0, j) ω)) P = nt * (p * (1 - p)) := by
    rw [IndepFun.variance_sum (fun j _ => hmem j) hind]
    simp only [hvar1, Finset.sum_const, Finset.card_univ, Fintype.card_fin, nsmul_eq_mul]
  have hb : ∀ ω, ballisticFraction nev d (t ω) = (1 / (nt : ℝ)) * (∑ j : Fin nt, fun ω => hit mu D (U (0, j) ω)) ω := by
    intro ω
    rw [hfr, Finset.sum_apply]; ring
  have hv : variance (fun ω => ballisticFraction nev d (t ω)) P = p * (1 - p) / nt := by
    have : (fun ω => ballisticFraction nev d (t ω)) = fun ω => (1 / (nt : ℝ)) * (∑ j : Fin nt, fun ω => hit mu D (U (0, j) ω)) ω :=
      funext hb
    rw [this, variance_const_mul, hsumvar]
    field_simp
  rw [← hv, variance_eq_integral, hm]
  have : (fun ω => ballisticFraction nev d (t ω)) = fun ω => (∑ j : Fin nt, hit mu D (U (0, j) ω)) / nt := funext hfr
  rw [this]
  exact ((Finset.measurable_sum _ fun j _ => hmeas j).div_const _).aemeasurable

/-- Non-vacuity of C112: the demonstration film of C95, with any number of trajectories. -/
example : ∃ (Ω : Type) (_ : MeasurableSpace Ω) (P : Measure Ω) (U : ℕ × ℕ → Ω → ℝ) (a : (nt : ℕ) → Ω → Args (nt + 1))
    (S : (nt : ℕ) → Ω → Sampling (nt + 1) 3) (t : (nt : ℕ) → Ω → Trajs (nt + 1)), IsProbabilityMeasure P ∧ UniformDraws P U ∧
    (∀ nt ω i (j : Fin (nt + 1)), (S nt ω).rand_step i j = U (i, j) ω) ∧
    (∀ nt ω, FilmRun (a nt ω) (S nt ω) (demoDet none)) ∧
    (∀ nt ω, Collimated (a nt ω) (S nt ω) 0 (demoDet none).n_medium (demoDet none).n_sample 1 1) ∧
    |Real.sin 0| < 1 ∧ 0 < (demoDet none).thickness ∧ (demoDet none).z_low = 0 ∧
    ∀ nt ω, simulate (4 + 1) (a nt ω) (S nt ω) = .ok (t nt ω) := by
  obtain ⟨Ω, mΩ, P, U, hP, hU, hr⟩ := uniformDraws_in_range (ℕ × ℕ)
  let A : (nt : ℕ) → Args (nt + 1) := fun nt =>
    ⟨1, 3 / 2, .film, 0, 0, none, 0, 0, none, 1, none, 0, fun _ => 0, fun _ => 0, fun _ => 0, fun _ => 0, fun _ => 0, fun _ => 0,
      fun _ => 0⟩
  let B : (nt : ℕ) → Ω → Sampling (nt + 1) 3 := fun nt ω =>
    { p := fun _ => 1, min_angle := 0, draw_theta := fun _ _ => 1, rand_phi := fun _ _ => 0, mu_scat := 1, mu_scat_mie := none,
      fine_roughness := 0, rand_step := fun i j => U (i, j) ω, rand_mie := fun _ => 1 / 2, mu_abs := 1 }
  have D := demo_filmRun 1 zero_le_one none
  have H : ∀ nt ω, FilmRun (A nt) (B nt ω) (demoDet none) := fun nt ω =>
    { nt_pos := Nat.succ_pos nt, film := rfl, no_diameter := rfl
      theta_len := fun l hl => (nomatch hl), phi_len := fun l hl => (nomatch hl), theta_range := le_rfl, phi_range := le_rfl, same_medium := rfl
      same_sample := rfl, medium_pos := D.medium_pos, not_denser := D.not_denser, front := D.front, back := D.back
      particle := D.particle, matrix := D.matrix, fine := D.fine
      draw_t := fun j => by norm_num [A], draw_p := fun j => by norm_num [A], phase := D.phase, min_angle := D.min_angle
      phase_pos := D.phase_pos, rand_phi := fun i j => by norm_num [B], mu_scat := D.mu_scat, mu_mie := D.mu_mie
      fine_step := D.fine_step, rand_step := fun i j => hr (i, j) ω, rand_mie := D.rand_mie, mu_abs := D.mu_abs }
  choose t ht using fun nt ω => simulate_facts (H nt ω) 4
  exact ⟨Ω, mΩ, P, U, fun nt _ => A nt, B, t, hP, hU, fun _ _ _ _ => rfl, H,
    fun nt ω => ⟨rfl, rfl, rfl, rfl, rfl, rfl, rfl, rfl, rfl, rfl, rfl⟩, by simp,
    by norm_num [demoDet], rfl, fun nt ω => (ht nt ω).1⟩

end Verif.Props
