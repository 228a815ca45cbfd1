import Mathlib.MeasureTheory.Function.Floor
import Verif.Props.Simulation
import Verif.Props.Statistics

/-!
# C110: absorption along the path inside the sample; C111: light that crosses a film unscattered
-/

namespace Verif.Props

open MeasureTheory ProbabilityTheory Verif.Spec Verif.Traj Verif.Simulation Verif.Exits Verif.Init XF
open Verif.Geometry (XV finV ofV3)

variable {nt num : ℕ}

/-! ## C110 -/

/-- length of the path through the points `pos 0, …, pos e` and then on to `q` -/
noncomputable def pathTo (pos : ℕ → V3) (e : ℕ) (q : V3) : ℝ :=
  ∑ i ∈ Finset.range e, (V3.sub (pos (i + 1)) (pos i)).norm + (V3.sub q (pos e)).norm

/-- the length of a path that stops at the fraction `f` of step `e` -/
theorem pathTo_move (p0 : ℕ → Fin nt → V3) (s : ℕ → Fin nt → ℝ) (k : ℕ → Fin nt → V3) (j : Fin nt) (e : ℕ) {f : ℝ}
    (hs : ∀ n, 0 ≤ s n j) (hk : ∀ n, n ≤ e → (k n j).norm = 1) (hf : 0 ≤ f) :
    pathTo (fun i => move p0 s k i j) e
      (V3.add (move p0 s k e j) (V3.smul f (V3.sub (move p0 s k (e + 1) j) (move p0 s k e j)))) =
      cumsum (fun n => s n j) e - (1 - f) * s e j := by
  unfold pathTo
  have h1 : ∀ i ∈ Finset.range e, (V3.sub (move p0 s k (i + 1) j) (move p0 s k i j)).norm = s i j := by
    intro i hi
    rw [(C33_move_steps p0 s k i j).2, norm_smul', hk i (Finset.mem_range.mp hi).le, mul_one, abs_of_nonneg (hs i)]
  have h2 : V3.sub (V3.add (move p0 s k e j) (V3.smul f (V3.sub (move p0 s k (e + 1) j) (move p0 s k e j)))) (move p0 s k e j) =
      V3.smul (f * s e j) (k e j) := by
    rw [(C33_move_steps p0 s k e j).2]
    ext <;> simp [V3.sub, V3.add, V3.smul] <;> ring
  rw [Finset.sum_congr rfl h1, h2, norm_smul', hk e le_rfl, mul_one, abs_of_nonneg (mul_nonneg hf (hs e)), cumsum_eq,
    Finset.sum_range_succ]
  ring

/-- C110, the part that holds.  Light that leaves the sample at the point `q` of its `e`-th step has lost at least what
absorption along its path inside the sample (up to `q`) takes, and exactly that without absorption or if the step ends at the
surface.  Missing: equality in general, refuted below. -/
theorem C110_absorbed_path_partial (w0 : ℕ → Fin nt → ℝ) (p0 : ℕ → Fin nt → V3) (s : ℕ → Fin nt → ℝ) (k : ℕ → Fin nt → V3)
    {mu : ℝ} (hmu : 0 ≤ mu) (j : Fin nt) (e : ℕ) (hs : ∀ n, 0 ≤ s n j) (hk : ∀ n, n ≤ e → (k n j).norm = 1)
    (hw : 0 ≤ w0 e j) {f : ℝ} (hf : 0 ≤ f) (hf1 : f ≤ 1) {q : V3}
    (hq : q = V3.add (move p0 s k e j) (V3.smul f (V3.sub (move p0 s k (e + 1) j) (move p0 s k e j)))) :
    absorb w0 mu s e j ≤ w0 e j * Real.exp (-(mu * pathTo (fun i => move p0 s k i j) e q)) ∧
    (mu = 0 ∨ f = 1 → absorb w0 mu s e j = w0 e j * Real.exp (-(mu * pathTo (fun i => move p0 s k i j) e q))) := by
  rw [hq, pathTo_move p0 s k j e hs hk hf]
  unfold absorb
  constructor
  · apply mul_le_mul_of_nonneg_left _ hw
    apply Real.exp_le_exp.mpr
    have h1 : 0 ≤ (1 - f) * s e j := mul_nonneg (by linarith) (hs e)
    nlinarith [mul_nonneg hmu h1]
  · rintro (h | h) <;> rw [h]
    · simp
    · congr 2; ring

/-- C110 is false of the code: light that leaves the sample within a step is absorbed along the whole step, also beyond the
surface.  Its weight is too small, by exactly the absorption along the part of the step outside the sample. -/
theorem C110_absorbed_path_refuted (w0 : ℕ → Fin nt → ℝ) (p0 : ℕ → Fin nt → V3) (s : ℕ → Fin nt → ℝ) (k : ℕ → Fin nt → V3)
    {mu : ℝ} (hmu : 0 < mu) (j : Fin nt) (e : ℕ) (hs : ∀ n, 0 ≤ s n j) (hse : 0 < s e j) (hk : ∀ n, n ≤ e → (k n j).norm = 1)
    (hw : 0 < w0 e j) {f : ℝ} (hf : 0 ≤ f) (hf1 : f < 1) {q : V3}
    (hq : q = V3.add (move p0 s k e j) (V3.smul f (V3.sub (move p0 s k (e + 1) j) (move p0 s k e j)))) :
    absorb w0 mu s e j < w0 e j * Real.exp (-(mu * pathTo (fun i => move p0 s k i j) e q)) ∧
    absorb w0 mu s e j = w0 e j * Real.exp (-(mu * pathTo (fun i => move p0 s k i j) e q)) *
      Real.exp (-(mu * ((1 - f) * s e j))) := by
  rw [hq, pathTo_move p0 s k j e hs hk hf]
  unfold absorb
  constructor
  · apply mul_lt_mul_of_pos_left _ hw
    apply Real.exp_lt_exp.mpr
    have h1 : 0 < (1 - f) * s e j := mul_pos (by linarith) hse
    nlinarith [mul_pos hmu h1]
  · rw [mul_assoc, ← Real.exp_add]
    congr 2; ring

/-- Non-vacuity of C110: one step of length 2 straight down, leaving at half of it. -/
example : ∃ (s : ℕ → Fin 1 → ℝ) (k : ℕ → Fin 1 → V3) (q : V3), (∀ n, 0 ≤ s n 0) ∧ 0 < s 0 0 ∧ (∀ n, n ≤ 0 → (k n 0).norm = 1) ∧
    q = V3.add (move (fun _ _ => V3.zero) s k 0 0)
      (V3.smul (1 / 2) (V3.sub (move (fun _ _ => V3.zero) s k (0 + 1) 0) (move (fun _ _ => V3.zero) s k 0 0))) ∧
    q = ⟨0, 0, 1⟩ := by
  refine ⟨fun _ _ => 2, fun _ _ => ⟨0, 0, 1⟩, _, fun _ => by norm_num, by norm_num, fun _ _ => ?_, rfl, ?_⟩
  · simp [V3.norm, V3.normSq, V3.dot]
  · rw [(C33_move_steps _ _ _ 0 0).2, (C33_move_steps _ _ _ 0 0).1]
    ext <;> norm_num [V3.add, V3.smul, V3.zero]

/-! ## C111 -/

/-- a smooth film lit at one angle of incidence, and a scattering coefficient without fine roughness -/
structure Collimated (a : Args nt) (S : Sampling nt num) (θ nm ns mu mua : ℝ) : Prop where
  film : a.boundary = .film
  smooth : a.coarse_roughness = 0
  medium : a.n_medium = nm
  sample : a.n_sample = ns
  theta_min : a.theta_min = θ
  theta_max : a.theta_max = θ
  no_data : a.theta_data = none
  scat : S.mu_scat = mu
  no_mie : S.mu_scat_mie = none
  no_fine : S.fine_roughness = 0
  abs : S.mu_abs = mua

/-- first row of a collimated simulation -/
theorem collimated_rows {a : Args nt} {S : Sampling nt num} {θ nm ns mu mua : ℝ} (H : Collimated a S θ nm ns mu mua)
    (hm : 0 < nm) (hle : nm ≤ ns) (hmu : 0 < mu) {nev : ℕ} {t : Trajs nt} (ht : simulate nev a S = .ok t) (j : Fin nt) :
    (t.direction 0 j).z = Real.sqrt (1 - (nm / ns * Real.sin θ) ^ 2) ∧ (t.position 0 j).z = 0 ∧
    (t.position 1 j).z = -Real.log (1 - S.rand_step 0 j) / mu * Real.sqrt (1 - (nm / ns * Real.sin θ) ^ 2) ∧
    t.weight 0 j = Real.exp (-(mua * (-Real.log (1 - S.rand_step 0 j) / mu))) := by
  have hs : 0 < ns := hm.trans_le hle
  have hin : nm * |Real.sin θ| ≤ ns := by
    have := Real.abs_sin_le_one θ
    nlinarith
  unfold simulate at ht
  rcases hi : initializeTraj a with e | p
  · rw [hi] at ht; simp only [bind, Except.bind] at ht; cases ht
  rw [hi] at ht
  simp only [bind, Except.bind] at ht
  rcases ha : sampleAngles1 nev S.p S.min_angle S.draw_theta S.rand_phi with e | ang
  · rw [ha] at ht; cases ht
  rw [ha] at ht
  simp only at ht
  have hst : sampleStep nt S.mu_scat S.mu_scat_mie S.fine_roughness S.rand_step S.rand_mie =
      .ok fun i j => fin (-Real.log (1 - S.rand_step i j) / mu) := by
    simp only [sampleStep, H.scat, H.no_mie, H.no_fine]
    rw [if_neg (by norm_num)]
    congr 1
    funext i j
    exact fin_div _ hmu.ne'
  rw [hst] at ht
  simp only [pure, Except.pure] at ht
  injection ht with ht
  subst ht
  have hval : ∀ r : ℝ, val (fin r) = r := fun _ => rfl
  -- what initialize delivers
  unfold initializeTraj at hi
  rw [H.film] at hi
  simp only at hi
  split at hi
  · cases hi
  have hinc : incidence a.theta_data a.theta_min a.theta_max a.ut = .ok fun _ => θ := by
    simp only [incidence, H.no_data, H.theta_min, H.theta_max, uniform, sub_self, zero_mul, add_zero]
  rw [hinc] at hi
  simp only at hi
  rcases hφ : incidence a.phi_data a.phi_min a.phi_max a.up with e | φ
  · rw [hφ] at hi; simp only at hi; cases hi
  rw [hφ] at hi
  simp only at hi
  rw [enter, if_pos H.smooth] at hi
  injection hi with hi
  subst hi
  have hk0 : firstRow (fun j => direction (Root.refraction1 (fin θ) (XF.abs (fin a.n_medium)) (XF.abs (fin a.n_sample)))
      (fin (Real.cos (φ j))) (fin (Real.sin (φ j)))) 0 j = ofV3 ⟨nm / ns * Real.sin θ * Real.cos (φ j),
        nm / ns * Real.sin θ * Real.sin (φ j), Real.sqrt (1 - (nm / ns * Real.sin θ) ^ 2)⟩ := by
    rw [H.medium, H.sample]
    exact (firstRow_zero _ _).trans (direction_refr hs hin hm)
  have hd : (scatter nev (fun i j => valV (firstRow (fun j => direction (Root.refraction1 (fin θ) (XF.abs (fin a.n_medium))
      (XF.abs (fin a.n_sample))) (fin (Real.cos (φ j))) (fin (Real.sin (φ j)))) i j)) ang.sintheta ang.costheta ang.sinphi ang.cosphi 0 j) =
      ⟨nm / ns * Real.sin θ * Real.cos (φ j), nm / ns * Real.sin θ * Real.sin (φ j), Real.sqrt (1 - (nm / ns * Real.sin θ) ^ 2)⟩ := by
    have := congrFun (scatter_loop (fun i j => valV (firstRow (fun j => direction (Root.refraction1 (fin θ) (XF.abs (fin a.n_medium))
      (XF.abs (fin a.n_sample))) (fin (Real.cos (φ j))) (fin (Real.sin (φ j)))) i j)) ang.sintheta ang.costheta ang.sinphi ang.cosphi (nev - 1)).1 j
    refine Eq.trans this ?_
    rw [hk0]; rfl
  have hp : ∀ (s : ℕ → Fin nt → ℝ) (k : ℕ → Fin nt → V3), (move (fun i j => valV (firstRow (fun j => finV (a.ux j * a.spot_size)
      (a.uy j * a.spot_size) 0) i j)) s k 0 j).z = 0 := by
    intro s k
    rw [(C33_move_steps _ s k 0 j).1]; rfl
  refine ⟨congrArg V3.z hd, by dsimp only; exact hp _ _, ?_, ?_⟩
  · have h1 := congrArg V3.z (C33_move_steps (fun i j => valV (firstRow (fun j => finV (a.ux j * a.spot_size)
      (a.uy j * a.spot_size) 0) i j)) (fun i j => val (fin (-Real.log (1 - S.rand_step i j) / mu)))
      (scatter nev (fun i j => valV (firstRow (fun j => direction (Root.refraction1 (fin θ) (XF.abs (fin a.n_medium))
      (XF.abs (fin a.n_sample))) (fin (Real.cos (φ j))) (fin (Real.sin (φ j)))) i j)) ang.sintheta ang.costheta ang.sinphi ang.cosphi) 0 j).2
    rw [hd] at h1
    simp only [V3.sub, V3.smul, hp, sub_zero, hval] at h1
    exact h1
  · simp only [absorb, cumsum, hval, H.abs, one_mul]

/-- A photon crosses the film in its first event exactly if its first step reaches the far face. -/
theorem ballistic_iff {nev : ℕ} {ns nm L : ℝ} (hm : 0 < nm) (hle : nm ≤ ns) (hL : 0 < L) {z : Fin (nev + 2) → Fin nt → ℝ}
    {kz : Fin (nev + 1) → Fin nt → ℝ} {j : Fin nt} {θ : ℝ} (hθ : |Real.sin θ| < 1)
    (hkz : kz 0 j = Real.sqrt (1 - (nm / ns * Real.sin θ) ^ 2)) (hz : z 0 j = 0) (hk : ∀ e j, |kz e j| ≤ 1) :
    let X := findValidExitsFilm ns nm L 0 z kz
    (findEventIndices X.neg X.pos X.tir).2.1 j = 1 ↔ L ≤ z 1 j := by
  intro X
  have hs : 0 < ns := hm.trans_le hle
  have hpos := (C11_film_exit_face hs hm hle hL z kz hk 0 j).1
  have hcone : ns * Real.sqrt (1 - kz 0 j ^ 2) < nm := by
    have hle1 : (nm / ns * Real.sin θ) ^ 2 ≤ 1 := by
      rw [sq_le_one_iff_abs_le_one, abs_mul, abs_of_pos (div_pos hm hs)]
      have h1 : nm / ns ≤ 1 := by rw [div_le_one hs]; exact hle
      have := div_pos hm hs
      nlinarith [abs_nonneg (Real.sin θ)]
    rw [hkz, Real.sq_sqrt (by linarith), show 1 - (1 - (nm / ns * Real.sin θ) ^ 2) = (nm / ns * Real.sin θ) ^ 2 by ring,
      Real.sqrt_sq_eq_abs, abs_mul, abs_of_pos (div_pos hm hs)]
    have : ns * (nm / ns * |Real.sin θ|) = nm * |Real.sin θ| := by field_simp
    rw [this]
    nlinarith
  have h1 : X.pos 0 j = true ↔ L ≤ z 1 j := by
    rw [hpos]
    have e0 : (z (0 : Fin (nev + 1)).castSucc j - 0) / (L - 0) = 0 := by
      have : z (0 : Fin (nev + 1)).castSucc j = 0 := hz
      rw [this]; simp
    have e1 : (z (0 : Fin (nev + 1)).succ j - 0) / (L - 0) = z 1 j / L := by
      have : z (0 : Fin (nev + 1)).succ j = z 1 j := rfl
      rw [this]; simp
    simp only [e0, e1]
    constructor
    · rintro ⟨-, b, hb, hface⟩
      rcases hb with ⟨hb0, hb1, -⟩ | ⟨hb0, hb1, hb2⟩
      · have : (1 : ℝ) ≤ b := by exact_mod_cast (by exact_mod_cast hb0 : (0 : ℤ) < b)
        have h2 : 1 ≤ z 1 j / L := this.trans hb1
        rwa [le_div_iff₀ hL, one_mul] at h2
      · exfalso
        have h2 : (0 : ℤ) ≤ b := hb2 0 (by simp)
        have h3 : b ≤ 0 := by exact_mod_cast hb1
        have h4 : b = 0 := le_antisymm h3 h2
        rw [h4] at hface
        have : fold ((0 : ℤ) : ℝ) = 0 := by simp [fold]
        rw [this] at hface
        linarith
    · intro h
      refine ⟨hcone, 1, Or.inl ⟨by norm_num, ?_, ?_⟩, ?_⟩
      · rw [le_div_iff₀ hL]; simpa using h
      · intro c hc
        have : (0 : ℤ) < c := by exact_mod_cast hc
        omega
      · have : fold ((1 : ℤ) : ℝ) = 1 := by
          unfold fold
          have h5 : round ((((1 : ℤ) : ℝ)) / 2) = 1 := by
            rw [round_eq]; norm_num
          rw [h5]; norm_num
        rw [this]; ring
  rw [(C10_first_exit (by omega) X.neg X.pos X.tir j).2.1 1 le_rfl, ← h1]
  constructor
  · rintro ⟨⟨-, -, ⟨e, he, hp⟩, -⟩, -⟩
    have : e = 0 := by
      apply Fin.ext
      have h0 : ((0 : Fin (nev + 1)) : ℕ) = 0 := rfl
      omega
    rwa [this] at hp
  · intro hp
    refine ⟨⟨le_rfl, by omega, ⟨0, by simp, hp⟩, fun k h1 h2 => by omega⟩, fun k hk' => ?_⟩
    rintro ⟨e, he, -⟩
    omega

/-- mean of `exp(-a s)` over exponentially distributed steps of at least `D` -/
theorem mean_exp_tail {mu a D : ℝ} (hmu : 0 < mu) (ha : 0 ≤ a) (hD : 0 ≤ D) :
    ∫ u, {u : ℝ | D ≤ -Real.log (1 - u) / mu}.indicator (fun u => Real.exp (-(a * (-Real.log (1 - u) / mu)))) u ∂unif =
      mu / (mu + a) * Real.exp (-((mu + a) * D)) := by
  have hsum : 0 < mu + a := by linarith
  have he : Real.exp (-(mu * D)) ≤ 1 := Real.exp_le_one_iff.mpr (by nlinarith)
  have he0 := Real.exp_pos (-(mu * D))
  have hset : MeasurableSet {u : ℝ | D ≤ -Real.log (1 - u) / mu} := measurableSet_le measurable_const (by fun_prop)
  rw [integral_indicator hset, unif, Measure.restrict_restrict hset]
  have hS : {u : ℝ | D ≤ -Real.log (1 - u) / mu} ∩ Set.Ico 0 1 = Set.Ico (1 - Real.exp (-(mu * D))) 1 := by
    ext u
    simp only [Set.mem_inter_iff, Set.mem_ofPred_eq, Set.mem_Ico]
    constructor
    · rintro ⟨h, h0, h1⟩
      refine ⟨?_, h1⟩
      rw [le_div_iff₀ hmu] at h
      have := (Real.log_le_iff_le_exp (by linarith : 0 < 1 - u)).mp (by linarith : Real.log (1 - u) ≤ -(mu * D))
      linarith
    · rintro ⟨h, h1⟩
      refine ⟨?_, by linarith, h1⟩
      rw [le_div_iff₀ hmu]
      have := (Real.log_le_iff_le_exp (by linarith : 0 < 1 - u)).mpr (by linarith : 1 - u ≤ Real.exp (-(mu * D)))
      linarith
  rw [hS, integral_Ico_eq_integral_Ioo]
  have hcongr : ∫ u in Set.Ioo (1 - Real.exp (-(mu * D))) 1, Real.exp (-(a * (-Real.log (1 - u) / mu))) =
      ∫ u in Set.Ioo (1 - Real.exp (-(mu * D))) 1, (1 - u) ^ (a / mu) := by
    refine setIntegral_congr_fun measurableSet_Ioo fun u hu => ?_
    have : 0 < 1 - u := by linarith [hu.2]
    rw [Real.rpow_def_of_pos this]
    congr 1
    field_simp
  rw [hcongr, ← integral_Ioc_eq_integral_Ioo, ← intervalIntegral.integral_of_le (by linarith),
    intervalIntegral.integral_comp_sub_left (fun x => x ^ (a / mu)) (1 : ℝ)]
  have hpos : 0 ≤ a / mu := div_nonneg ha hmu.le
  rw [show (1 : ℝ) - 1 = 0 by ring, show 1 - (1 - Real.exp (-(mu * D))) = Real.exp (-(mu * D)) by ring,
    integral_rpow (Or.inl (by linarith)), Real.zero_rpow (by linarith), sub_zero, ← Real.exp_mul]
  have h1 : -(mu * D) * (a / mu + 1) = -((mu + a) * D) := by field_simp; ring
  rw [h1]
  have : a / mu + 1 = (mu + a) / mu := by field_simp; ring
  rw [this]
  field_simp

/-- the event in which `calc_refl_trans` finds trajectory `j` transmitted (1 is the first; 0 means never) -/
noncomputable def transEvent (nev : ℕ) (d : DetArgs) (t : Trajs nt) (j : Fin nt) : ℕ :=
  let X := findValidExitsFilm d.n_sample d.n_medium d.thickness d.z_low
    (fun (e : Fin (nev + 2)) j => (t.position e j).z) (fun (e : Fin (nev + 1)) j => (t.direction e j).z)
  (findEventIndices X.neg X.pos X.tir).2.1 j

theorem trans_first_iff {a : Args nt} {S : Sampling nt num} {d : DetArgs} {θ mu mua : ℝ} (H : FilmRun a S d)
    (C : Collimated a S θ d.n_medium d.n_sample mu mua) (hθ : |Real.sin θ| < 1) (hL : 0 < d.thickness) (hlow : d.z_low = 0)
    {nev : ℕ} {t : Trajs nt} (ht : simulate (nev + 1) a S = .ok t) (j : Fin nt) :
    0 < Real.sqrt (1 - (d.n_medium / d.n_sample * Real.sin θ) ^ 2) ∧
    (transEvent nev d t j = 1 ↔
      d.thickness / Real.sqrt (1 - (d.n_medium / d.n_sample * Real.sin θ) ^ 2) ≤ -Real.log (1 - S.rand_step 0 j) / mu) := by
  obtain ⟨t', ht', hunit, -⟩ := simulate_facts H nev
  rw [ht] at ht'
  injection ht' with ht'
  subst ht'
  have hmu : 0 < mu := C.scat ▸ H.mu_scat
  have hs : 0 < d.n_sample := H.medium_pos.trans_le H.not_denser
  obtain ⟨h1, h2, h3, -⟩ := collimated_rows C H.medium_pos H.not_denser hmu ht j
  have hc : 0 < Real.sqrt (1 - (d.n_medium / d.n_sample * Real.sin θ) ^ 2) := by
    apply Real.sqrt_pos.mpr
    have : |d.n_medium / d.n_sample * Real.sin θ| < 1 := by
      rw [abs_mul, abs_of_pos (div_pos H.medium_pos hs)]
      have h1 : d.n_medium / d.n_sample ≤ 1 := by rw [div_le_one hs]; exact H.not_denser
      nlinarith [abs_nonneg (Real.sin θ), div_pos H.medium_pos hs]
    have := (sq_lt_one_iff_abs_lt_one _).mpr this
    linarith
  refine ⟨hc, ?_⟩
  have hk : ∀ (e : Fin (nev + 1)) (j : Fin nt), |(t.direction e j).z| ≤ 1 := by
    intro e j
    have := hunit e j e.2
    rw [← sq_le_one_iff_abs_le_one]
    simp only [V3.normSq, V3.dot] at this
    nlinarith [mul_self_nonneg (t.direction e j).x, mul_self_nonneg (t.direction e j).y]
  have := ballistic_iff (nev := nev) (z := fun e j => (t.position e j).z) (kz := fun e j => (t.direction e j).z) (j := j)
    H.medium_pos H.not_denser hL hθ h1 h2 hk
  unfold transEvent
  rw [hlow]
  refine this.trans ?_
  change d.thickness ≤ (t.position 1 j).z ↔ _
  rw [h3, div_le_iff₀ hc]

/-- C111, the part that holds: **Beer's law for the unscattered light.**  In a smooth film of thickness `L` lit at one angle of
incidence, the probability that a given photon is found transmitted in its first event is `exp(-mu L / c)`, where `c` is the
cosine of the angle of refraction (Snell) and `L / c` the slanted path — whatever the phase function and the absorption, for
every film and every number of events.  Missing: the mean *weight* of that light, refuted below when the sample absorbs. -/
theorem C111_ballistic_light_partial {Ω : Type} [MeasurableSpace Ω] (P : Measure Ω) [IsProbabilityMeasure P]
    (U : ℕ × Fin nt → Ω → ℝ) (hU : UniformDraws P U) (a : Ω → Args nt) (S : Ω → Sampling nt num) (d : DetArgs)
    (hS : ∀ ω i j, (S ω).rand_step i j = U (i, j) ω) (H : ∀ ω, FilmRun (a ω) (S ω) d) (θ mu mua : ℝ)
    (C : ∀ ω, Collimated (a ω) (S ω) θ d.n_medium d.n_sample mu mua) (hθ : |Real.sin θ| < 1)
    (hL : 0 < d.thickness) (hlow : d.z_low = 0) (nev : ℕ) (t : Ω → Trajs nt)
    (ht : ∀ ω, simulate (nev + 1) (a ω) (S ω) = .ok (t ω)) (j : Fin nt) :
    P.real {ω | transEvent nev d (t ω) j = 1} =
      Real.exp (-(mu * (d.thickness / Real.sqrt (1 - (d.n_medium / d.n_sample * Real.sin θ) ^ 2)))) := by
  have : Nonempty Ω := by
    by_contra h
    rw [not_nonempty_iff] at h
    have := measure_univ (μ := P)
    rw [Set.univ_eq_empty_iff.mpr h, measure_empty] at this
    exact zero_ne_one this
  obtain ⟨ω0⟩ := this
  have hmu : 0 < mu := (C ω0).scat ▸ (H ω0).mu_scat
  have hc := (trans_first_iff (H ω0) (C ω0) hθ hL hlow (ht ω0) j).1
  obtain ⟨D, hD⟩ : ∃ D, D = d.thickness / Real.sqrt (1 - (d.n_medium / d.n_sample * Real.sin θ) ^ 2) := ⟨_, rfl⟩
  have hD0 : 0 ≤ D := hD ▸ (div_pos hL hc).le
  have hset : {ω | transEvent nev d (t ω) j = 1} = U (0, j) ⁻¹' {u : ℝ | D ≤ -Real.log (1 - u) / mu} := by
    ext ω
    simp only [Set.mem_ofPred_eq, Set.mem_preimage]
    rw [(trans_first_iff (H ω) (C ω) hθ hL hlow (ht ω) j).2, hS, hD]
  have hms : MeasurableSet {u : ℝ | D ≤ -Real.log (1 - u) / mu} := measurableSet_le measurable_const (by fun_prop)
  rw [hset, ← hD, ← map_measureReal_apply (hU.meas _) hms, hU.law]
  have h := mean_exp_tail (a := 0) hmu le_rfl hD0
  simp only [zero_mul, neg_zero, Real.exp_zero, add_zero, div_self hmu.ne', one_mul] at h
  rw [← h, integral_indicator hms]
  simp

/-- C111 is false of the code for the weight, if the sample absorbs.  Light that goes straight through the film should arrive
with the fraction `exp(-(mu + mu_abs) L / c)` of its weight (Beer's law with the extinction coefficient).  The mean weight of
the light transmitted in the first event is smaller by the factor `mu / (mu + mu_abs)`: the weight is reduced by absorption
along the whole first step, also along its part beyond the far face. -/
theorem C111_ballistic_light_refuted {Ω : Type} [MeasurableSpace Ω] (P : Measure Ω) [IsProbabilityMeasure P]
    (U : ℕ × Fin nt → Ω → ℝ) (hU : UniformDraws P U) (a : Ω → Args nt) (S : Ω → Sampling nt num) (d : DetArgs)
    (hS : ∀ ω i j, (S ω).rand_step i j = U (i, j) ω) (H : ∀ ω, FilmRun (a ω) (S ω) d) (θ mu mua : ℝ)
    (C : ∀ ω, Collimated (a ω) (S ω) θ d.n_medium d.n_sample mu mua) (hθ : |Real.sin θ| < 1)
    (hL : 0 < d.thickness) (hlow : d.z_low = 0) (nev : ℕ) (t : Ω → Trajs nt)
    (ht : ∀ ω, simulate (nev + 1) (a ω) (S ω) = .ok (t ω)) (j : Fin nt) :
    ∫ ω, {ω | transEvent nev d (t ω) j = 1}.indicator (fun ω => (t ω).weight 0 j) ω ∂P =
      mu / (mu + mua) *
        Real.exp (-((mu + mua) * (d.thickness / Real.sqrt (1 - (d.n_medium / d.n_sample * Real.sin θ) ^ 2)))) ∧
    (0 < mua → ∫ ω, {ω | transEvent nev d (t ω) j = 1}.indicator (fun ω => (t ω).weight 0 j) ω ∂P <
      Real.exp (-((mu + mua) * (d.thickness / Real.sqrt (1 - (d.n_medium / d.n_sample * Real.sin θ) ^ 2))))) := by
  have : Nonempty Ω := by
    by_contra h
    rw [not_nonempty_iff] at h
    have := measure_univ (μ := P)
    rw [Set.univ_eq_empty_iff.mpr h, measure_empty] at this
    exact zero_ne_one this
  obtain ⟨ω0⟩ := this
  have hmu : 0 < mu := (C ω0).scat ▸ (H ω0).mu_scat
  have hmua : 0 ≤ mua := (C ω0).abs ▸ (H ω0).mu_abs
  have hc := (trans_first_iff (H ω0) (C ω0) hθ hL hlow (ht ω0) j).1
  obtain ⟨D, hD⟩ : ∃ D, D = d.thickness / Real.sqrt (1 - (d.n_medium / d.n_sample * Real.sin θ) ^ 2) := ⟨_, rfl⟩
  have hD0 : 0 ≤ D := hD ▸ (div_pos hL hc).le
  have hfun : ∀ ω, {ω | transEvent nev d (t ω) j = 1}.indicator (fun ω => (t ω).weight 0 j) ω =
      {u : ℝ | D ≤ -Real.log (1 - u) / mu}.indicator (fun u => Real.exp (-(mua * (-Real.log (1 - u) / mu)))) (U (0, j) ω) := by
    intro ω
    have h1 := (trans_first_iff (H ω) (C ω) hθ hL hlow (ht ω) j).2
    have h2 := (collimated_rows (C ω) (H ω).medium_pos (H ω).not_denser hmu (ht ω) j).2.2.2
    rw [hS, ← hD] at h1
    rw [hS] at h2
    by_cases h : transEvent nev d (t ω) j = 1
    · rw [Set.indicator_of_mem (by exact h), Set.indicator_of_mem (by exact h1.mp h), h2]
    · rw [Set.indicator_of_notMem (by exact h), Set.indicator_of_notMem (by exact fun hh => h (h1.mpr hh))]
  have hms : MeasurableSet {u : ℝ | D ≤ -Real.log (1 - u) / mu} := measurableSet_le measurable_const (by fun_prop)
  have hval : ∫ ω, {ω | transEvent nev d (t ω) j = 1}.indicator (fun ω => (t ω).weight 0 j) ω ∂P =
      mu / (mu + mua) * Real.exp (-((mu + mua) * D)) := by
    rw [← mean_exp_tail hmu hmua hD0, ← hU.law (0, j), integral_map (hU.meas _).aemeasurable]
    · exact integral_congr_ae (Filter.Eventually.of_forall hfun)
    · exact (Measurable.indicator (by fun_prop) hms).aestronglyMeasurable
  rw [← hD]
  refine ⟨hval, fun hpos => ?_⟩
  rw [hval]
  have h1 : mu / (mu + mua) < 1 := by rw [div_lt_one (by linarith)]; linarith
  nlinarith [Real.exp_pos (-((mu + mua) * D))]

/-- uniform streams whose values are all in [0, 1) -/
theorem uniformDraws_in_range (ι : Type) :
    ∃ (Ω : Type) (_ : MeasurableSpace Ω) (P : Measure Ω) (U : ι → Ω → ℝ), IsProbabilityMeasure P ∧ UniformDraws P U ∧
      ∀ i ω, 0 ≤ U i ω ∧ U i ω < 1 := by
  obtain ⟨Ω, mΩ, P, W, hP, hW⟩ := uniformDraws_exist ι
  refine ⟨Ω, mΩ, P, fun i ω => Int.fract (W i ω), hP, ⟨fun i => measurable_fract.comp (hW.meas i), fun i => ?_, ?_⟩, fun i ω =>
    ⟨Int.fract_nonneg _, Int.fract_lt_one _⟩⟩
  · have h1 : (fun ω => Int.fract (W i ω)) = Int.fract ∘ W i := rfl
    rw [h1, ← Measure.map_map measurable_fract (hW.meas i), hW.law, unif]
    conv_rhs => rw [← Measure.map_id (μ := volume.restrict (Set.Ico (0 : ℝ) 1))]
    refine Measure.map_congr ?_
    filter_upwards [ae_restrict_mem measurableSet_Ico] with u hu
    exact Int.fract_eq_self.mpr hu
  · exact hW.indep.comp (fun _ => Int.fract) (fun _ => measurable_fract)

/-- Non-vacuity of C111: the demonstration run of C95 with random steps. -/
example : ∃ (Ω : Type) (_ : MeasurableSpace Ω) (P : Measure Ω) (U : ℕ × Fin 1 → Ω → ℝ) (S : Ω → Sampling 1 3)
    (t : Ω → Trajs 1), IsProbabilityMeasure P ∧ UniformDraws P U ∧ (∀ ω i j, (S ω).rand_step i j = U (i, j) ω) ∧
    (∀ ω, FilmRun demoArgs (S ω) (demoDet none)) ∧
    (∀ ω, Collimated demoArgs (S ω) 0 (demoDet none).n_medium (demoDet none).n_sample 1 1) ∧
    |Real.sin 0| < 1 ∧ 0 < (demoDet none).thickness ∧ (demoDet none).z_low = 0 ∧
    ∀ ω, simulate (4 + 1) demoArgs (S ω) = .ok (t ω) := by
  obtain ⟨Ω, mΩ, P, U, hP, hU, hr⟩ := uniformDraws_in_range (ℕ × Fin 1)
  have H : ∀ ω, FilmRun demoArgs { demoSampling 1 with rand_step := fun i j => U (i, j) ω } (demoDet none) := fun ω =>
    { demo_filmRun 1 zero_le_one none with rand_step := fun i j => hr (i, j) ω }
  choose t ht using fun ω => simulate_facts (H ω) 4
  exact ⟨Ω, mΩ, P, U, _, t, hP, hU, fun _ _ _ => rfl, H, fun ω => ⟨rfl, rfl, rfl, rfl, rfl, rfl, rfl, rfl, rfl, rfl, rfl⟩, by simp,
    by norm_num [demoDet], rfl, fun ω => (ht ω).1⟩

end Verif.Props
