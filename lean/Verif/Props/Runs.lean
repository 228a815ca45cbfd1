import Mathlib.Probability.Moments.Variance
import Mathlib.Probability.CentralLimitTheorem
import Verif.Props.Rng
import Verif.Props.ClearFilm

/-!
# C157: runs one after the other with the same generator
-/

namespace Verif.Props
noncomputable section
open Classical Verif.Spec Verif.Traj Verif.Simulation Verif.Init Verif.Exits Verif.Geometry Verif.Rng _root_.Verif.XF
open MeasureTheory ProbabilityTheory Filter Topology
open Verif (XF PyErr)

/-- the draws of photon `j`, from the numbers one run takes from the generator -/
def blockDraws (c N nev : ℕ) (x : Fin c → ℝ) (j : ℕ) (dr : Draw) : ℝ :=
  match usedRow nev dr with
  | some r => if h : r * N + j < c then x ⟨r * N + j, h⟩ else 0
  | none => 0

theorem blockDraws_meas (c N nev j : ℕ) : Measurable fun x => blockDraws c N nev x j := by
  refine measurable_pi_lambda _ fun dr => ?_
  unfold blockDraws
  cases usedRow nev dr with
  | none => exact measurable_const
  | some r =>
    dsimp only
    by_cases h : r * N + j < c
    · simp only [h, dif_pos]; exact measurable_pi_apply _
    · simp only [h, dif_neg, not_false_eq_true]; exact measurable_const

/-- photon `j` of a run, as a function of the numbers the run takes from the generator -/
def blockPhoton {nt n : ℕ} (a : Args nt) (S : Sampling nt (n + 1)) (d : DetArgs) (nev c : ℕ) (x : Fin c → ℝ) (j : ℕ) : Photon :=
  smoothPhoton (nev := nev) d.optics.medium d.z_low d.thickness
    (fun e => colZ a.theta_min a.theta_max a.phi_min a.phi_max S.p S.min_angle S.mu_scat d.n_medium d.n_sample (blockDraws c nt nev x j) e)
    (fun e => (colK a.theta_min a.theta_max a.phi_min a.phi_max S.p S.min_angle d.n_medium d.n_sample (blockDraws c nt nev x j) e).z)
    (fun e => colW S.mu_scat S.mu_abs (blockDraws c nt nev x j) e)

theorem blockPhoton_meas {nt n : ℕ} {a : Args nt} {S : Sampling nt (n + 1)} {d : DetArgs} (H : FilmRun a S d) (hth : d.z_low < d.thickness)
    (nev c j : ℕ) : PhotonMeas fun x => blockPhoton a S d nev c x j :=
  smoothPhoton_meas hth H.medium_pos (fun e => (colZ_meas _ _ _ _ _ _ _ _ _ e).comp (blockDraws_meas c nt nev j))
    (fun e => ((colK_meas _ _ _ _ _ _ _ _ e).2.2).comp (blockDraws_meas c nt nev j))
    (fun e => (colW_meas _ _ e).comp (blockDraws_meas c nt nev j))

theorem photon_block {nt n : ℕ} {a : Args (nt + 1)} {S : Sampling (nt + 1) (n + 1)} {d : DetArgs} (H : FilmRun a S d)
    (hsm : a.coarse_roughness = 0) (hat : a.theta_data = none) (hap : a.phi_data = none) (hm : S.mu_scat_mie = none) {g : Gen}
    (hr : ∀ i, 0 ≤ g.stream i ∧ g.stream i < 1) {nev : ℕ} {t : Trajs (nt + 1)}
    (ht : simulate (nev + 1) (drawArgs g a) (drawSampling g nev S) = .ok t) (j : Fin (nt + 1)) :
    simPhoton nev d t j = blockPhoton a S d nev ((5 + 3 * nev) * (nt + 1)) (fun q => g.stream (g.pos + q)) j := by
  set c := (5 + 3 * nev) * (nt + 1) with hc
  set x : Fin c → ℝ := fun q => g.stream (g.pos + q) with hx
  let V : ℕ × Draw → Unit → ℝ := fun y _ => blockDraws c (nt + 1) nev x y.1 y.2
  let A : (k : ℕ) → Args (k + 1) := fun k =>
    ⟨a.n_medium, a.n_sample, .film, a.theta_min, a.theta_max, none, a.phi_min, a.phi_max, none, a.spot_size, none, 0, fun _ => 0, fun _ => 0,
      fun j => V (j, .beamTheta) (), fun j => V (j, .beamPhi) (), fun _ => 0, fun _ => 0, fun _ => 0⟩
  let B : (k : ℕ) → Sampling (k + 1) (n + 1) := fun k =>
    { p := S.p, min_angle := S.min_angle, draw_theta := fun i j => choiceIndex (probTheta S.p S.min_angle) (V (j, .angle i) ()),
      rand_phi := fun i j => V (j, .azimuth i) (), mu_scat := S.mu_scat, mu_scat_mie := none, fine_roughness := S.fine_roughness,
      rand_step := fun i j => V (j, .step i) (), rand_mie := S.rand_mie, mu_abs := S.mu_abs }
  let a0 : (k : ℕ) → Unit → Args (k + 1) := fun k _ => if h : k = nt then h ▸ drawArgs g a else A k
  let S0 : (k : ℕ) → Unit → Sampling (k + 1) (n + 1) := fun k _ => if h : k = nt then h ▸ drawSampling g nev S else B k
  have ha0 : ∀ u, a0 nt u = drawArgs g a := fun u => by simp [a0]
  have hS0 : ∀ u, S0 nt u = drawSampling g nev S := fun u => by simp [S0]
  have hA : ∀ k u, k ≠ nt → a0 k u = A k := fun k u h => dif_neg h
  have hB : ∀ k u, k ≠ nt → S0 k u = B k := fun k u h => dif_neg h
  have hV : ∀ (j : Fin (nt + 1)) dr r, usedRow nev dr = some r → ∀ u, V (j, dr) u = Gen.row g (nt + 1) r j := by
    intro j dr r h u
    have hlt : r * (nt + 1) + (j : ℕ) < c := by
      have h1 : (r + 1) * (nt + 1) ≤ (5 + 3 * nev) * (nt + 1) := Nat.mul_le_mul_right _ (usedRow_lt h)
      have h2 := j.isLt
      rw [add_mul, one_mul] at h1
      omega
    simp only [V, blockDraws, h, dif_pos hlt, hx, Gen.row, Nat.add_assoc]
  have hV0 : ∀ (j : Fin (nt + 1)) dr, usedRow nev dr = none → ∀ u, V (j, dr) u = 0 := by
    intro j dr h u
    simp only [V, blockDraws, h]
  have hazi : ∀ i (j : Fin (nt + 1)) u, (if i < nev then Gen.row g (nt + 1) (4 + i) j else 0) = V (j, .azimuth i) u := by
    intro i j u
    by_cases h : i < nev
    · rw [if_pos h, hV j (.azimuth i) (4 + i) (by simp [usedRow, h]) u]
    · rw [if_neg h, hV0 j (.azimuth i) (by simp [usedRow, h]) u]
  have hang : ∀ i (j : Fin (nt + 1)) u, (if i < nev then Gen.row g (nt + 1) (4 + nev + i) j else 0) = V (j, .angle i) u := by
    intro i j u
    by_cases h : i < nev
    · rw [if_pos h, hV j (.angle i) (4 + nev + i) (by simp [usedRow, h]) u]
    · rw [if_neg h, hV0 j (.angle i) (by simp [usedRow, h]) u]
  have hstp : ∀ i (j : Fin (nt + 1)) u, (if i < nev + 1 then Gen.row g (nt + 1) (4 + 2 * nev + i) j else 0) = V (j, .step i) u := by
    intro i j u
    by_cases h : i < nev + 1
    · rw [if_pos h, hV j (.step i) (4 + 2 * nev + i) (by simp [usedRow, h]) u]
    · rw [if_neg h, hV0 j (.step i) (by simp [usedRow, h]) u]
  have hR0 : StreamRun V a.theta_min a.theta_max a.phi_min a.phi_max S.p S.min_angle S.mu_scat S.mu_abs a0 S0 := by
    constructor <;> intro k u <;> rcases eq_or_ne k nt with h | h
    all_goals first
      | (subst h; simp only [ha0, hS0, drawArgs, drawSampling, hsm, hat, hap, hm]; done)
      | (rw [hA k u h]; done)
      | (rw [hB k u h]; done)
      | (rw [hA k u h]; intros; rfl)
      | (rw [hB k u h]; intros; rfl)
      | skip
    · subst h; intro j; rw [ha0 u]; exact (hV j .beamTheta 2 rfl u).symm
    · subst h; intro j; rw [ha0 u]; exact (hV j .beamPhi 3 rfl u).symm
    · subst h; intro i j; rw [hS0 u]; exact congrArg (choiceIndex (probTheta S.p S.min_angle)) (hang i j u)
    · subst h; intro i j; rw [hS0 u]; exact hazi i j u
    · subst h; intro i j; rw [hS0 u]; exact hstp i j u
  have hD := filmRun_draws H (g := g) hr nev
  have hc := column hR0 (nt := nt) (ω := ()) (d := d) (by rw [ha0 (), hS0 ()]; exact hD) (t := t) (nev := nev) (by rw [ha0 (), hS0 ()]; exact ht) j
  have hg : group V j () = blockDraws c (nt + 1) nev x j := rfl
  rw [hg] at hc
  unfold simPhoton blockPhoton
  congr 1
  · funext e
    exact hc.2.1 e (by omega)
  · funext e
    rw [hc.1 e (by omega)]
  · funext e
    exact hc.2.2 e

/-- reflectance and transmittance of a run, as functions of the numbers it takes from the generator (0 if NaN) -/
def blockR {nt n : ℕ} (a : Args nt) (S : Sampling nt (n + 1)) (d : DetArgs) (nev c : ℕ) (x : Fin c → ℝ) : ℝ × ℝ :=
  if Photon.known (fun j : Fin nt => blockPhoton a S d nev c x j) = 0 then (0, 0)
  else (∑ j, Photon.refl (fun j : Fin nt => blockPhoton a S d nev c x j) j, ∑ j, Photon.trans (fun j : Fin nt => blockPhoton a S d nev c x j) j)

theorem blockR_meas {nt n : ℕ} {a : Args nt} {S : Sampling nt (n + 1)} {d : DetArgs} (H : FilmRun a S d) (hth : d.z_low < d.thickness)
    (nev c : ℕ) : Measurable (blockR a S d nev c) := by
  have M := fun j : Fin nt => blockPhoton_meas H hth nev c j
  have m1 := fun j => (M j).enter
  have m2 := fun j => (M j).outR
  have m3 := fun j => (M j).outT
  have m4 := fun j => (M j).trapped
  have m5 := fun j => (M j).escR
  have m6 := fun j => (M j).escT
  have mab : Measurable fun x => Photon.absorbed fun j : Fin nt => blockPhoton a S d nev c x j :=
    Finset.measurable_sum _ fun j _ => (((m1 j).sub (m2 j)).sub (m3 j)).sub (m4 j)
  have meR : Measurable fun x => Photon.escapedR fun j : Fin nt => blockPhoton a S d nev c x j :=
    Finset.measurable_sum _ fun j _ => (m2 j).mul (m5 j)
  have meT : Measurable fun x => Photon.escapedT fun j : Fin nt => blockPhoton a S d nev c x j :=
    Finset.measurable_sum _ fun j _ => (m3 j).mul (m6 j)
  have mk : Measurable fun x => Photon.known fun j : Fin nt => blockPhoton a S d nev c x j := (mab.add meR).add meT
  have msR : ∀ j : Fin nt, Measurable fun x => if (blockPhoton a S d nev c x j).seenR then
      (blockPhoton a S d nev c x j).outR * (blockPhoton a S d nev c x j).escR else 0 := fun j =>
    Measurable.ite (M j).seenR ((m2 j).mul (m5 j)) measurable_const
  have msT : ∀ j : Fin nt, Measurable fun x => if (blockPhoton a S d nev c x j).seenT then
      (blockPhoton a S d nev c x j).outT * (blockPhoton a S d nev c x j).escT else 0 := fun j =>
    Measurable.ite (M j).seenT ((m3 j).mul (m6 j)) measurable_const
  have mi : ∀ j : Fin nt, Measurable fun x => if (blockPhoton a S d nev c x j).seenInc then 1 - (blockPhoton a S d nev c x j).enter else 0 :=
    fun j => Measurable.ite (M j).seenInc (measurable_const.sub (m1 j)) measurable_const
  have mshR : Measurable fun x => Photon.shareR fun j : Fin nt => blockPhoton a S d nev c x j :=
    ((Finset.measurable_sum _ fun j _ => msR j).max measurable_const).div (meR.max measurable_const)
  have mshT : Measurable fun x => Photon.shareT fun j : Fin nt => blockPhoton a S d nev c x j :=
    ((Finset.measurable_sum _ fun j _ => msT j).max measurable_const).div (meT.max measurable_const)
  have mrefl : Measurable fun x => ∑ j, Photon.refl (fun j : Fin nt => blockPhoton a S d nev c x j) j :=
    Finset.measurable_sum _ fun j _ => (((msR j).add (mi j)).add
      (((((m2 j).mul (measurable_const.sub (m5 j))).mul (meR.div mk)).add (((m3 j).mul (measurable_const.sub (m6 j))).mul (meT.div mk))).add
        ((m4 j).div_const 2) |>.mul mshR)).div_const _
  have mtrans : Measurable fun x => ∑ j, Photon.trans (fun j : Fin nt => blockPhoton a S d nev c x j) j :=
    Finset.measurable_sum _ fun j _ => ((msT j).add
      (((((m3 j).mul (measurable_const.sub (m6 j))).mul (meR.div mk)).add (((m2 j).mul (measurable_const.sub (m5 j))).mul (meT.div mk))).add
        ((m4 j).div_const 2) |>.mul mshT)).div_const _
  exact Measurable.ite (mk (measurableSet_singleton 0)) measurable_const (mrefl.prodMk mtrans)

theorem run_block {nt n : ℕ} {a : Args (nt + 1)} {facet : Option (ℝ → ℝ)} {S : Sampling (nt + 1) (n + 1)} {d : DetArgs} (H : FilmRun a S d)
    (hsm : a.coarse_roughness = 0) (hat : a.theta_data = none) (hap : a.phi_data = none) (hm : S.mu_scat_mie = none) (hfine : d.fine_roughness = 0)
    (hg : d.gonio = none) (hth : d.z_low < d.thickness) {b : Bool} {w w' : World} (hr : ∀ i, 0 ≤ (w.gen b).stream i ∧ (w.gen b).stream i < 1)
    {nev : ℕ} {rt : Weights.RT (nt + 1)} (h : runFilmRng b nev a facet S d w = .ok (rt, w')) :
    w' = w.advance b ((5 + 3 * nev) * (nt + 1)) ∧
      (val rt.R, val rt.T) = blockR a S d nev ((5 + 3 * nev) * (nt + 1)) (fun q => (w.gen b).stream ((w.gen b).pos + q)) ∧
      0 ≤ val rt.R ∧ 0 ≤ val rt.T ∧ val rt.R + val rt.T ≤ 1 := by
  have hD := filmRun_draws H (g := w.gen b) hr nev
  obtain ⟨t, ht, -⟩ := simulate_facts hD nev
  obtain ⟨-, r1, e1, k1⟩ := run_photons hD hsm hfine hg hth ht
  have hsim := film_numbers b nev a facet S w H.film H.no_diameter hat hap hsm hm
  rw [ht] at hsim
  unfold runFilmRng at h
  rw [hsim] at h
  unfold runFilm at e1
  rw [ht] at e1
  simp only [Bind.bind, Except.bind, Except.map] at h e1
  rw [e1] at h
  injection h with h
  have h1 : r1 = rt := congrArg Prod.fst h
  have h2 := congrArg Prod.snd h
  subst h1
  refine ⟨h2.symm, ?_⟩
  have hfr : 0 ≤ val r1.R ∧ 0 ≤ val r1.T ∧ val r1.R + val r1.T ≤ 1 := by
    obtain ⟨r2, e2, k2⟩ := C95_film_run_fractions hD nev
    have : r2 = r1 := by
      unfold runFilm at e2
      rw [ht] at e2
      simp only [Bind.bind, Except.bind] at e2
      rw [e1] at e2
      injection e2 with e2
      exact e2.symm
    subst this
    rcases k2 with ⟨x, y⟩ | ⟨R, T, x, y, h0, h0', h1⟩
    · rw [x, y]
      exact ⟨le_rfl, le_rfl, by simp [val]⟩
    · rw [x, y]
      exact ⟨h0, h0', h1⟩
  refine ⟨?_, hfr⟩
  have hp : simPhoton nev d t = fun j : Fin (nt + 1) => blockPhoton a S d nev ((5 + 3 * nev) * (nt + 1)) (fun q => (w.gen b).stream ((w.gen b).pos + q)) j :=
    funext fun j => photon_block H hsm hat hap hm hr ht j
  rw [hp] at k1
  unfold blockR
  rcases k1 with ⟨k, x, y⟩ | ⟨k, x, y⟩
  · rw [if_pos k, x, y]
    rfl
  · rw [if_neg k, x, y]
    rfl

/-- Runs one after the other (film, smooth surface, no goniometer, trajectories without given angles), each of which works with the generator in
the state in which the previous one left it.  Run `i` has `nt i + 1` trajectories, `nev i + 1` events and settings `a i`, `S i`, `d i`; `w i` is the
state of the generators before it, `rt i` its result.  The generator delivers the numbers `u 0`, `u 1`, ... and has delivered `pos` of them before. -/
structure Successive {Ω : Type} (u : ℕ → Ω → ℝ) (b : Bool) (pos : ℕ) (nt nev n : ℕ → ℕ) (a : (i : ℕ) → Args (nt i + 1))
    (facet : ℕ → Option (ℝ → ℝ)) (S : (i : ℕ) → Sampling (nt i + 1) (n i + 1)) (d : ℕ → DetArgs) (w : ℕ → Ω → World)
    (rt : (i : ℕ) → Ω → Weights.RT (nt i + 1)) : Prop where
  domain : ∀ i, FilmRun (a i) (S i) (d i)
  smooth : ∀ i, (a i).coarse_roughness = 0
  no_theta : ∀ i, (a i).theta_data = none
  no_phi : ∀ i, (a i).phi_data = none
  no_mie : ∀ i, (S i).mu_scat_mie = none
  fine : ∀ i, (d i).fine_roughness = 0
  no_gonio : ∀ i, (d i).gonio = none
  thick : ∀ i, (d i).z_low < (d i).thickness
  start : ∀ ω, (w 0 ω).gen b = ⟨fun q => u q ω, pos⟩
  next : ∀ i ω, runFilmRng b (nev i) (a i) (facet i) (S i) (d i) (w i ω) = .ok (rt i ω, w (i + 1) ω)

/-- the numbers that run `i` takes -/
def taken (nt nev : ℕ → ℕ) (i : ℕ) : ℕ := (5 + 3 * nev i) * (nt i + 1)

/-- the numbers that the runs before run `i` take -/
def before (c : ℕ → ℕ) (i : ℕ) : ℕ := ∑ m ∈ Finset.range i, c m

theorem before_succ (c : ℕ → ℕ) (i : ℕ) : before c (i + 1) = before c i + c i := Finset.sum_range_succ _ _

theorem before_mono (c : ℕ → ℕ) : Monotone (before c) :=
  monotone_nat_of_le_succ fun i => by rw [before_succ]; omega

theorem before_inj (c : ℕ → ℕ) (pos : ℕ) :
    Function.Injective fun y : (i : ℕ) × Fin (c i) => pos + before c y.1 + y.2 := by
  rintro ⟨i, q⟩ ⟨i', q'⟩ h
  dsimp only at h
  have key : ∀ {i i' : ℕ} (q : Fin (c i)) (q' : Fin (c i')),
      pos + before c i + q = pos + before c i' + q' → i' ≤ i := by
    intro i i' q q' h
    by_contra hlt
    push Not at hlt
    have h1 := before_mono c (Nat.succ_le_of_lt hlt)
    rw [Nat.succ_eq_add_one, before_succ] at h1
    have := q.isLt
    omega
  have e : i = i' := le_antisymm (key q' q h.symm) (key q q' h)
  subst e
  have : q = q' := Fin.ext (by omega)
  rw [this]

section
variable {Ω : Type} [MeasurableSpace Ω] {P : Measure Ω} [IsProbabilityMeasure P] {u : ℕ → Ω → ℝ}

/-- the numbers that run `i` takes from the generator -/
def block (u : ℕ → Ω → ℝ) (pos : ℕ) (c : ℕ → ℕ) (i : ℕ) (ω : Ω) : Fin (c i) → ℝ :=
  fun q => u (pos + before c i + q) ω

omit [IsProbabilityMeasure P] in
theorem block_meas (hu : UniformDraws P u) (pos : ℕ) (c : ℕ → ℕ) (i : ℕ) : Measurable (block u pos c i) :=
  measurable_pi_lambda _ fun _ => hu.meas _

theorem block_law (hu : UniformDraws P u) (pos : ℕ) (c : ℕ → ℕ) (i : ℕ) :
    P.map (block u pos c i) = Measure.infinitePi fun _ : Fin (c i) => unif := by
  have h := hu.indep.precomp (g := fun q : Fin (c i) => pos + before c i + q) (fun q q' h => Fin.ext (by simpa using h))
  have := (iIndepFun_iff_map_fun_eq_infinitePi_map (P := P) (X := fun q : Fin (c i) => u (pos + before c i + q))
    fun q => hu.meas _).mp h
  refine this.trans ?_
  congr 1
  funext q
  exact hu.law _

theorem block_indep (hu : UniformDraws P u) (pos : ℕ) (c : ℕ → ℕ) : iIndepFun (block u pos c) P := by
  rw [iIndepFun_iff_map_fun_eq_infinitePi_map (block_meas hu pos c)]
  let v : (i : ℕ) × Fin (c i) → Ω → ℝ := fun y => u (pos + before c y.1 + y.2)
  have hv : iIndepFun v P := hu.indep.precomp (before_inj c pos)
  have e1 : P.map (fun ω y => v y ω) = Measure.infinitePi fun _ : (i : ℕ) × Fin (c i) => unif := by
    rw [(iIndepFun_iff_map_fun_eq_infinitePi_map fun y => hu.meas _).mp hv]
    congr 1
    funext y
    exact hu.law _
  have e2 := Measure.infinitePi_map_piCurry (ι := ℕ) (κ := fun i => Fin (c i)) (X := fun _ _ => ℝ) (fun _ _ => unif)
  rw [← e1, Measure.map_map (MeasurableEquiv.measurable _) (measurable_pi_lambda _ fun y => hu.meas _)] at e2
  refine Eq.trans ?_ (e2.trans ?_)
  · rfl
  · congr 1
    funext i
    exact (block_law hu pos c i).symm

variable {b : Bool} {pos : ℕ} {nt nev n : ℕ → ℕ} {a : (i : ℕ) → Args (nt i + 1)}
    {facet : ℕ → Option (ℝ → ℝ)} {S : (i : ℕ) → Sampling (nt i + 1) (n i + 1)} {d : ℕ → DetArgs} {w : ℕ → Ω → World}
    {rt : (i : ℕ) → Ω → Weights.RT (nt i + 1)}

omit [MeasurableSpace Ω] in
theorem Successive.gen (H : Successive u b pos nt nev n a facet S d w rt) (hr : ∀ i ω, 0 ≤ u i ω ∧ u i ω < 1) (i : ℕ) (ω : Ω) :
    (w i ω).gen b = ⟨fun q => u q ω, pos + before (taken nt nev) i⟩ := by
  induction i with
  | zero => simpa [before] using H.start ω
  | succ i ih =>
    have hrun := run_block (H.domain i) (H.smooth i) (H.no_theta i) (H.no_phi i) (H.no_mie i) (H.fine i) (H.no_gonio i) (H.thick i)
      (b := b) (w := w i ω) (by rw [ih]; exact fun q => hr q ω) (H.next i ω)
    rw [hrun.1, gen_advance, ih, before_succ, ← add_assoc]
    rfl

omit [MeasurableSpace Ω] in
theorem Successive.result (H : Successive u b pos nt nev n a facet S d w rt) (hr : ∀ i ω, 0 ≤ u i ω ∧ u i ω < 1) (i : ℕ) (ω : Ω) :
    (val (rt i ω).R, val (rt i ω).T) = blockR (a i) (S i) (d i) (nev i) (taken nt nev i) (block u pos (taken nt nev) i ω) ∧
      0 ≤ val (rt i ω).R ∧ 0 ≤ val (rt i ω).T ∧ val (rt i ω).R + val (rt i ω).T ≤ 1 := by
  have hg := H.gen hr i ω
  have hrun := run_block (H.domain i) (H.smooth i) (H.no_theta i) (H.no_phi i) (H.no_mie i) (H.fine i) (H.no_gonio i) (H.thick i)
    (b := b) (w := w i ω) (by rw [hg]; exact fun q => hr q ω) (H.next i ω)
  refine ⟨?_, hrun.2.2⟩
  rw [hrun.2.1, hg]
  rfl

/-- C157: runs one after the other with the same generator are independent: no run's reflectance and transmittance say anything about those of
the others, whatever the settings and the numbers of trajectories and events of each. -/
theorem C157_independent_runs (hu : UniformDraws P u) (hr : ∀ i ω, 0 ≤ u i ω ∧ u i ω < 1)
    (H : Successive u b pos nt nev n a facet S d w rt) :
    (∀ i, Measurable fun ω => (val (rt i ω).R, val (rt i ω).T)) ∧ iIndepFun (fun i ω => (val (rt i ω).R, val (rt i ω).T)) P := by
  have e : (fun i ω => (val (rt i ω).R, val (rt i ω).T)) =
      fun i => blockR (a i) (S i) (d i) (nev i) (taken nt nev i) ∘ block u pos (taken nt nev) i := by
    funext i ω
    exact (H.result hr i ω).1
  have hm := fun i => blockR_meas (H.domain i) (H.thick i) (nev i) (taken nt nev i)
  constructor
  · intro i
    have := (hm i).comp (block_meas hu pos (taken nt nev) i)
    exact (congrFun e i) ▸ this
  · rw [e]
    exact (block_indep hu pos (taken nt nev)).comp _ hm

/-- repeated runs with the same settings: independent, with the same distribution, between 0 and 1 -/
theorem repeated {b : Bool} {pos nt nev n : ℕ} {a : Args (nt + 1)} {facet : Option (ℝ → ℝ)} {S : Sampling (nt + 1) (n + 1)} {d : DetArgs}
    {w : ℕ → Ω → World} {rt : ℕ → Ω → Weights.RT (nt + 1)} (hu : UniformDraws P u) (hr : ∀ i ω, 0 ≤ u i ω ∧ u i ω < 1)
    (H : Successive u b pos (fun _ => nt) (fun _ => nev) (fun _ => n) (fun _ => a) (fun _ => facet) (fun _ => S) (fun _ => d) w rt)
    {X : ℕ → Ω → ℝ} (hX : (X = fun i ω => val (rt i ω).R) ∨ (X = fun i ω => val (rt i ω).T)) :
    (∀ i, Measurable (X i)) ∧ iIndepFun X P ∧ (∀ i, IdentDistrib (X i) (X 0) P P) ∧ (∀ i ω, X i ω ∈ Set.Icc (0 : ℝ) 1) := by
  obtain ⟨hm, hi⟩ := C157_independent_runs hu hr H
  obtain ⟨g, hg, hXg⟩ : ∃ g : ℝ × ℝ → ℝ, Measurable g ∧ X = fun i ω => g (val (rt i ω).R, val (rt i ω).T) := by
    rcases hX with h | h
    · exact ⟨Prod.fst, measurable_fst, h⟩
    · exact ⟨Prod.snd, measurable_snd, h⟩
  refine ⟨fun i => ?_, ?_, fun i => ?_, fun i ω => ?_⟩
  · rw [hXg]; exact hg.comp (hm i)
  · rw [hXg]; exact hi.comp (fun _ => g) fun _ => hg
  · have hB := blockR_meas (H.domain 0) (H.thick 0) nev ((5 + 3 * nev) * (nt + 1))
    have e : ∀ i, X i = fun ω => g (blockR a S d nev ((5 + 3 * nev) * (nt + 1)) (block u pos (taken (fun _ => nt) fun _ => nev) i ω)) := by
      intro i
      rw [hXg]
      funext ω
      dsimp only
      rw [(H.result hr i ω).1]
      rfl
    have hbl := fun i => block_meas hu pos (taken (fun _ => nt) fun _ => nev) i
    rw [e i, e 0]
    have hid : IdentDistrib (block u pos (taken (fun _ => nt) fun _ => nev) i) (block u pos (taken (fun _ => nt) fun _ => nev) 0) P P :=
      ⟨(hbl i).aemeasurable, (hbl 0).aemeasurable, 
        (block_law hu pos (taken (fun _ => nt) fun _ => nev) i).trans (block_law hu pos (taken (fun _ => nt) fun _ => nev) 0).symm⟩
    exact hid.comp (hg.comp hB)
  · have h := (H.result hr i ω).2
    rcases hX with e | e <;> rw [e] <;> constructor <;> dsimp only <;> linarith [h.1, h.2.1, h.2.2]

/-- the average of the results of the first `k` runs -/
def average (X : ℕ → Ω → ℝ) (k : ℕ) (ω : Ω) : ℝ := (∑ i ∈ Finset.range k, X i ω) / k

/-- the squared standard error that one calculates from the results of `k` runs -/
def standardErrorSq (X : ℕ → Ω → ℝ) (k : ℕ) (ω : Ω) : ℝ :=
  (∑ i ∈ Finset.range k, (X i ω - average X k ω) ^ 2) / (k * (k - 1))

theorem standard_error_core {X : ℕ → Ω → ℝ} (hm : ∀ i, Measurable (X i)) (hi : iIndepFun X P) (hid : ∀ i, IdentDistrib (X i) (X 0) P P)
    (hb : ∀ i ω, X i ω ∈ Set.Icc (0 : ℝ) 1) {k : ℕ} (hk : 0 < k) :
    ∫ ω, average X k ω ∂P = ∫ ω, X 0 ω ∂P ∧ variance (average X k) P = variance (X 0) P / k ∧
      (1 < k → ∫ ω, standardErrorSq X k ω ∂P = variance (X 0) P / k) := by
  have hk' : (k : ℝ) ≠ 0 := Nat.cast_ne_zero.mpr hk.ne'
  have hL : ∀ i, MemLp (X i) 2 P := fun i =>
    memLp_of_bounded (Eventually.of_forall (hb i)) (hm i).aestronglyMeasurable 2
  have hI : ∀ i, Integrable (X i) P := fun i => (hL i).integrable one_le_two
  have hmean : ∫ ω, average X k ω ∂P = ∫ ω, X 0 ω ∂P := by
    unfold average
    rw [integral_div, integral_finsetSum _ fun i _ => hI i, Finset.sum_congr rfl fun i _ => (hid i).integral_eq]
    rw [Finset.sum_const, Finset.card_range, nsmul_eq_mul]
    field_simp
  have hvar : variance (average X k) P = variance (X 0) P / k := by
    have e : average X k = fun ω => (k : ℝ)⁻¹ * (∑ i ∈ Finset.range k, X i) ω := by
      funext ω
      simp only [average, Finset.sum_apply]
      ring
    rw [e, variance_const_mul, IndepFun.variance_sum (fun i _ => hL i) (fun i _ j _ hij => hi.indepFun hij),
      Finset.sum_congr rfl fun i _ => (hid i).variance_eq, Finset.sum_const, Finset.card_range, nsmul_eq_mul]
    field_simp
  refine ⟨hmean, hvar, fun hk1 => ?_⟩
  have hbA : ∀ ω, average X k ω ∈ Set.Icc (0 : ℝ) 1 := by
    intro ω
    unfold average
    refine ⟨div_nonneg (Finset.sum_nonneg fun i _ => (hb i ω).1) (Nat.cast_nonneg _), ?_⟩
    rw [div_le_one (Nat.cast_pos.mpr hk)]
    calc ∑ i ∈ Finset.range k, X i ω ≤ ∑ _i ∈ Finset.range k, (1 : ℝ) := Finset.sum_le_sum fun i _ => (hb i ω).2
      _ = k := by simp
  have hmA : Measurable (average X k) := (Finset.measurable_sum _ fun i _ => hm i).div_const _
  have hLA : MemLp (average X k) 2 P := memLp_of_bounded (Eventually.of_forall hbA) hmA.aestronglyMeasurable 2
  have e : standardErrorSq X k = fun ω => ((∑ i ∈ Finset.range k, X i ω ^ 2) - k * average X k ω ^ 2) / (k * (k - 1)) := by
    funext ω
    unfold standardErrorSq
    congr 1
    have hs : ∑ i ∈ Finset.range k, X i ω = k * average X k ω := by
      unfold average
      field_simp
    have : ∀ i, (X i ω - average X k ω) ^ 2 = X i ω ^ 2 - 2 * average X k ω * X i ω + average X k ω ^ 2 := fun i => by ring
    simp only [this, Finset.sum_add_distrib, Finset.sum_sub_distrib, ← Finset.mul_sum, hs, Finset.sum_const, Finset.card_range, nsmul_eq_mul]
    ring
  have h1 : (1 : ℝ) < k := by exact_mod_cast hk1
  have i1 : ∀ i, Integrable (fun ω => X i ω ^ 2) P := fun i => (hL i).integrable_sq
  have i2 : Integrable (fun ω => average X k ω ^ 2) P := hLA.integrable_sq
  have v1 : ∀ i, ∫ ω, X i ω ^ 2 ∂P = variance (X 0) P + (∫ ω, X 0 ω ∂P) ^ 2 := by
    intro i
    have := variance_eq_sub (hL i)
    rw [(hid i).variance_eq, (hid i).integral_eq] at this
    have e' : ∫ ω, (X i ^ 2) ω ∂P = ∫ ω, X i ω ^ 2 ∂P := rfl
    rw [← e']
    linarith
  have v2 : ∫ ω, average X k ω ^ 2 ∂P = variance (X 0) P / k + (∫ ω, X 0 ω ∂P) ^ 2 := by
    have := variance_eq_sub hLA
    rw [hvar, hmean] at this
    have e' : ∫ ω, (average X k ^ 2) ω ∂P = ∫ ω, average X k ω ^ 2 ∂P := rfl
    rw [← e']
    linarith
  rw [e, integral_div, integral_sub (integrable_finsetSum _ fun i _ => i1 i) (i2.const_mul _), integral_finsetSum _ fun i _ => i1 i, integral_const_mul,
    Finset.sum_congr rfl fun i _ => v1 i, v2, Finset.sum_const, Finset.card_range, nsmul_eq_mul]
  have h2 : (k : ℝ) - 1 ≠ 0 := by linarith
  field_simp
  ring

/-- C157: the average of the reflectance (or the transmittance) over `k` runs with the same settings and the same generator has the expected value of
one run, and a variance that is smaller by the factor `k`; the standard error calculated from the spread of the `k` results is right on average. -/
theorem C157_standard_error {b : Bool} {pos nt nev n : ℕ} {a : Args (nt + 1)} {facet : Option (ℝ → ℝ)} {S : Sampling (nt + 1) (n + 1)} {d : DetArgs}
    {w : ℕ → Ω → World} {rt : ℕ → Ω → Weights.RT (nt + 1)} (hu : UniformDraws P u) (hr : ∀ i ω, 0 ≤ u i ω ∧ u i ω < 1)
    (H : Successive u b pos (fun _ => nt) (fun _ => nev) (fun _ => n) (fun _ => a) (fun _ => facet) (fun _ => S) (fun _ => d) w rt)
    {X : ℕ → Ω → ℝ} (hX : (X = fun i ω => val (rt i ω).R) ∨ (X = fun i ω => val (rt i ω).T)) {k : ℕ} (hk : 0 < k) :
    ∫ ω, average X k ω ∂P = ∫ ω, X 0 ω ∂P ∧ variance (average X k) P = variance (X 0) P / k ∧
      (1 < k → ∫ ω, standardErrorSq X k ω ∂P = variance (X 0) P / k) := by
  obtain ⟨hm, hi, hid, hb⟩ := repeated hu hr H hX
  exact standard_error_core hm hi hid hb hk

theorem average_settles_core {X : ℕ → Ω → ℝ} (hm : ∀ i, Measurable (X i)) (hi : iIndepFun X P) (hid : ∀ i, IdentDistrib (X i) (X 0) P P)
    (hb : ∀ i ω, X i ω ∈ Set.Icc (0 : ℝ) 1) :
    (∀ᵐ ω ∂P, Tendsto (fun k => average X k ω) atTop (𝓝 (∫ ω, X 0 ω ∂P))) ∧
      ∀ k, 0 < k → ∀ c, 0 < c → P.real {ω | c ≤ |average X k ω - ∫ ω, X 0 ω ∂P|} ≤ variance (X 0) P / (k * c ^ 2) := by
  have hL : MemLp (X 0) 2 P := memLp_of_bounded (Eventually.of_forall (hb 0)) (hm 0).aestronglyMeasurable 2
  constructor
  · exact strong_law_ae_real X (hL.integrable one_le_two) (fun i j hij => hi.indepFun hij) hid
  · intro k hk c hc
    obtain ⟨h1, h2, -⟩ := standard_error_core hm hi hid hb hk
    have hbA : ∀ ω, average X k ω ∈ Set.Icc (0 : ℝ) 1 := by
      intro ω
      unfold average
      refine ⟨div_nonneg (Finset.sum_nonneg fun i _ => (hb i ω).1) (Nat.cast_nonneg _), ?_⟩
      rw [div_le_one (Nat.cast_pos.mpr hk)]
      calc ∑ i ∈ Finset.range k, X i ω ≤ ∑ _i ∈ Finset.range k, (1 : ℝ) := Finset.sum_le_sum fun i _ => (hb i ω).2
        _ = k := by simp
    have hmA : Measurable (average X k) := (Finset.measurable_sum _ fun i _ => hm i).div_const _
    have hLA : MemLp (average X k) 2 P := memLp_of_bounded (Eventually.of_forall hbA) hmA.aestronglyMeasurable 2
    have h := meas_ge_le_variance_div_sq hLA hc
    rw [h1, h2] at h
    have := ENNReal.toReal_mono ENNReal.ofReal_ne_top h
    rw [ENNReal.toReal_ofReal (by have := variance_nonneg (X 0) P; positivity), div_div] at this
    exact this

/-- C157: with more and more runs, the average tends to the expected value of one run, with probability one; and the probability that it is off by
`c` or more is at most the variance of one run divided by `k c²`. -/
theorem C157_average_settles {b : Bool} {pos nt nev n : ℕ} {a : Args (nt + 1)} {facet : Option (ℝ → ℝ)} {S : Sampling (nt + 1) (n + 1)} {d : DetArgs}
    {w : ℕ → Ω → World} {rt : ℕ → Ω → Weights.RT (nt + 1)} (hu : UniformDraws P u) (hr : ∀ i ω, 0 ≤ u i ω ∧ u i ω < 1)
    (H : Successive u b pos (fun _ => nt) (fun _ => nev) (fun _ => n) (fun _ => a) (fun _ => facet) (fun _ => S) (fun _ => d) w rt)
    {X : ℕ → Ω → ℝ} (hX : (X = fun i ω => val (rt i ω).R) ∨ (X = fun i ω => val (rt i ω).T)) :
    (∀ᵐ ω ∂P, Tendsto (fun k => average X k ω) atTop (𝓝 (∫ ω, X 0 ω ∂P))) ∧
      ∀ k, 0 < k → ∀ c, 0 < c → P.real {ω | c ≤ |average X k ω - ∫ ω, X 0 ω ∂P|} ≤ variance (X 0) P / (k * c ^ 2) := by
  obtain ⟨hm, hi, hid, hb⟩ := repeated hu hr H hX
  exact average_settles_core hm hi hid hb

theorem error_bars_core {X : ℕ → Ω → ℝ} (hm : ∀ i, Measurable (X i)) (hi : iIndepFun X P) (hid : ∀ i, IdentDistrib (X i) (X 0) P P)
    (hb : ∀ i ω, X i ω ∈ Set.Icc (0 : ℝ) 1) (hv : variance (X 0) P ≠ 0) (z : ℝ) :
    Tendsto (fun k : ℕ => P.real {ω | |average X k ω - ∫ ω, X 0 ω ∂P| ≤ z * √(variance (X 0) P / k)}) atTop
      (𝓝 ((gaussianReal 0 1).real (Set.Icc (-z) z))) := by
  have hL : MemLp (X 0) 2 P := memLp_of_bounded (Eventually.of_forall (hb 0)) (hm 0).aestronglyMeasurable 2
  set v := variance (X 0) P with hvdef
  have hv0 : 0 < v := lt_of_le_of_ne (variance_nonneg _ _) (Ne.symm hv)
  set s := √v with hs
  have hs0 : 0 < s := Real.sqrt_pos.mpr hv0
  have hlaw : HasLaw (fun x : ℝ => s * x) (gaussianReal 0 v.toNNReal) (gaussianReal 0 1) := by
    refine ⟨by fun_prop, ?_⟩
    have := gaussianReal_map_const_mul (μ := 0) (v := 1) s
    rw [this]
    congr 1
    · simp
    · apply NNReal.eq
      simp [hs, Real.sq_sqrt hv0.le, hv0.le]
  have hT := tendstoInDistribution_inv_sqrt_mul_sum_sub hlaw hL hi hid
  have hvn : v.toNNReal ≠ 0 := by
    rw [Ne, Real.toNNReal_eq_zero, not_le]
    exact hv0
  have := nullSingletonClass_gaussianReal (μ := 0) hvn
  have hfr : ((gaussianReal 0 1).map fun x : ℝ => s * x) (frontier (Set.Icc (-(z * s)) (z * s))) = 0 := by
    rw [hlaw.map_eq]
    rcases le_or_gt (-(z * s)) (z * s) with h | h
    · rw [frontier_Icc h]
      exact (Set.toFinite _).measure_zero _
    · rw [Set.Icc_eq_empty (not_le.mpr h), frontier_empty, measure_empty]
  have hA := ProbabilityMeasure.tendsto_measure_of_null_frontier_of_tendsto' hT.tendsto hfr
  have hlim : ((gaussianReal 0 1).map fun x : ℝ => s * x) (Set.Icc (-(z * s)) (z * s)) = gaussianReal 0 1 (Set.Icc (-z) z) := by
    rw [Measure.map_apply (by fun_prop) measurableSet_Icc]
    congr 1
    ext x
    simp only [Set.mem_preimage, Set.mem_Icc]
    constructor <;> rintro ⟨h1, h2⟩ <;> constructor <;> nlinarith
  have hA' := (ENNReal.tendsto_toReal (measure_ne_top ((gaussianReal 0 1).map fun x : ℝ => s * x) (Set.Icc (-(z * s)) (z * s)))).comp hA
  rw [hlim] at hA'
  refine hA'.congr' ?_
  filter_upwards [eventually_gt_atTop 0] with k hk
  have hk0 : (0 : ℝ) < k := Nat.cast_pos.mpr hk
  have hq : 0 < √(k : ℝ) := Real.sqrt_pos.mpr hk0
  have hqq : √(k : ℝ) * √(k : ℝ) = k := Real.mul_self_sqrt hk0.le
  show ((P.map fun ω => (√(k : ℝ))⁻¹ * (∑ i ∈ Finset.range k, X i ω - k * ∫ ω, X 0 ω ∂P)) (Set.Icc (-(z * s)) (z * s))).toReal = _
  rw [Measure.map_apply (by fun_prop) measurableSet_Icc]
  show P.real _ = P.real _
  congr 1
  ext ω
  simp only [Set.mem_preimage, Set.mem_Icc, Set.mem_ofPred_eq]
  have e : (√(k : ℝ))⁻¹ * (∑ i ∈ Finset.range k, X i ω - k * ∫ ω, X 0 ω ∂P) = √(k : ℝ) * (average X k ω - ∫ ω, X 0 ω ∂P) := by
    unfold average
    field_simp
    rw [sq, hqq]
  have e2 : z * √(v / k) = z * s / √(k : ℝ) := by
    rw [Real.sqrt_div hv0.le, mul_div_assoc]
  rw [e, e2, le_div_iff₀ hq, ← abs_le, abs_mul, abs_of_pos hq, mul_comm]

/-- C157: error bars: if the results of single runs scatter at all, then the probability that the average over `k` runs is within `z` standard errors
of the expected value tends to that with which a standard normal variable lies between -z and z. -/
theorem C157_error_bars {b : Bool} {pos nt nev n : ℕ} {a : Args (nt + 1)} {facet : Option (ℝ → ℝ)} {S : Sampling (nt + 1) (n + 1)} {d : DetArgs}
    {w : ℕ → Ω → World} {rt : ℕ → Ω → Weights.RT (nt + 1)} (hu : UniformDraws P u) (hr : ∀ i ω, 0 ≤ u i ω ∧ u i ω < 1)
    (H : Successive u b pos (fun _ => nt) (fun _ => nev) (fun _ => n) (fun _ => a) (fun _ => facet) (fun _ => S) (fun _ => d) w rt)
    {X : ℕ → Ω → ℝ} (hX : (X = fun i ω => val (rt i ω).R) ∨ (X = fun i ω => val (rt i ω).T)) (hv : variance (X 0) P ≠ 0) (z : ℝ) :
    Tendsto (fun k : ℕ => P.real {ω | |average X k ω - ∫ ω, X 0 ω ∂P| ≤ z * √(variance (X 0) P / k)}) atTop
      (𝓝 ((gaussianReal 0 1).real (Set.Icc (-z) z))) := by
  obtain ⟨hm, hi, hid, hb⟩ := repeated hu hr H hX
  exact error_bars_core hm hi hid hb hv z

end

theorem run_exists {nt n : ℕ} {a : Args (nt + 1)} (facet : Option (ℝ → ℝ)) {S : Sampling (nt + 1) (n + 1)} {d : DetArgs} (H : FilmRun a S d)
    (hsm : a.coarse_roughness = 0) (hat : a.theta_data = none) (hap : a.phi_data = none) (hm : S.mu_scat_mie = none) (hfine : d.fine_roughness = 0)
    (hg : d.gonio = none) (hth : d.z_low < d.thickness) (b : Bool) (w : World) (hr : ∀ i, 0 ≤ (w.gen b).stream i ∧ (w.gen b).stream i < 1)
    (nev : ℕ) : ∃ rt, runFilmRng b nev a facet S d w = .ok (rt, w.advance b ((5 + 3 * nev) * (nt + 1))) ∧
      runFilm nev (drawArgs (w.gen b) a) (drawSampling (w.gen b) nev S) d = .ok rt := by
  have hD := filmRun_draws H (g := w.gen b) hr nev
  obtain ⟨t, ht, -⟩ := simulate_facts hD nev
  obtain ⟨-, r1, e1, -⟩ := run_photons hD hsm hfine hg hth ht
  have hsim := film_numbers b nev a facet S w H.film H.no_diameter hat hap hsm hm
  refine ⟨r1, ?_, e1⟩
  rw [ht] at hsim
  unfold runFilmRng
  rw [hsim]
  unfold runFilm at e1
  rw [ht] at e1
  simp only [Bind.bind, Except.bind, Except.map] at e1 ⊢
  rw [e1]
  rfl

/-- Non-vacuity of C157: runs with one trajectory in the absorbing film of C95; the transmittance scatters. -/
example : ∃ (Ω : Type) (_ : MeasurableSpace Ω) (P : Measure Ω) (_ : IsProbabilityMeasure P) (u : ℕ → Ω → ℝ) (w : ℕ → Ω → World)
    (rt : ℕ → Ω → Weights.RT (0 + 1)), UniformDraws P u ∧ (∀ i ω, 0 ≤ u i ω ∧ u i ω < 1) ∧
    Successive u true 0 (fun _ => 0) (fun _ => 0) (fun _ => 2) (fun _ => demoArgs) (fun _ => none) (fun _ => demoSampling 1)
      (fun _ => demoDet none) w rt ∧ variance (fun ω => val (rt 0 ω).T) P ≠ 0 := by
  obtain ⟨Ω, mΩ, P, u, hP, hu, hr⟩ := uniformDraws_in_range ℕ
  have H := demo_filmRun 1 zero_le_one none
  have hth : (demoDet none).z_low < (demoDet none).thickness := by norm_num [demoDet]
  let w : ℕ → Ω → World := fun i ω => ⟨⟨fun q => u q ω, 5 * i⟩, ⟨fun q => u q ω, 0⟩⟩
  have hrun := fun i ω => run_exists none H rfl rfl rfl rfl rfl rfl hth true (w i ω) (fun q => hr q ω) 0
  choose rt h1 h2 using hrun
  have HS : Successive u true 0 (fun _ => 0) (fun _ => 0) (fun _ => 2) (fun _ => demoArgs) (fun _ => none) (fun _ => demoSampling 1)
      (fun _ => demoDet none) w rt :=
    ⟨fun _ => H, fun _ => rfl, fun _ => rfl, fun _ => rfl, fun _ => rfl, fun _ => rfl, fun _ => rfl, fun _ => hth, fun _ => rfl,
      fun i ω => (h1 i ω).trans (by rfl)⟩
  refine ⟨Ω, mΩ, P, hP, u, w, rt, hu, hr, HS, fun hv => ?_⟩
  obtain ⟨hm, -, -, hb⟩ := repeated (P := P) hu hr HS (Or.inr rfl)
  have hL : MemLp (fun ω => val (rt 0 ω).T) 2 P := memLp_of_bounded (Eventually.of_forall (hb 0)) (hm 0).aestronglyMeasurable 2
  have hconst := ae_eq_integral_of_variance_eq_zero hL hv
  set m := ∫ ω, val (rt 0 ω).T ∂P with hmdef
  set c : ℝ := (1 - surfaceR 1 (3 / 2) 0) / (1 + 1 / 10 ^ 9) with hc
  have hc0 : 0 < c := by rw [hc, demo_surface]; norm_num
  have hT : ∀ ω, 1 - Real.exp (-10) ≤ u 4 ω → val (rt 0 ω).T = c * (1 - u 4 ω) * c := by
    intro ω hω
    have hD := filmRun_draws H (g := (w 0 ω).gen true) (fun q => hr q ω) 0
    have hu1 : 0 < 1 - u 4 ω := by linarith [(hr 4 ω).2]
    have hrow : ∀ j : Fin 1, (drawSampling ((w 0 ω).gen true) 0 (demoSampling 1)).rand_step 0 j = u 4 ω := by
      intro j
      have : j = 0 := Subsingleton.elim _ _
      subst this
      rfl
    obtain ⟨r, e1, e2, -⟩ := crossed_run (θ := 0) (mu := 1) (mua := 1) hD ⟨rfl, rfl, rfl, rfl, rfl, rfl, rfl, rfl, rfl, rfl, rfl⟩ le_rfl
      (by positivity) rfl rfl rfl rfl rfl rfl (by norm_num [demoDet]) 0 (fun j => by
        rw [hrow]
        show (10 : ℝ) ≤ _
        rw [Real.sin_zero, mul_zero]
        norm_num
        rw [le_neg, Real.log_le_iff_le_exp hu1]
        linarith)
    have : r = rt 0 ω := by
      have := e1.symm.trans (h2 0 ω)
      injection this
    rw [← this, e2]
    show (∑ j : Fin 1, c * Real.exp (-(1 * (-Real.log (1 - (drawSampling ((w 0 ω).gen true) 0 (demoSampling 1)).rand_step 0 j) / 1))) * c) / ((1 : ℕ) : ℝ) = _
    simp only [hrow]
    simp [Real.exp_log hu1]
  have hq : ∀ᵐ ω ∂P, u 4 ω ∉ Set.Ico (1 - Real.exp (-10)) 1 \ {1 - m / (c * c)} := by
    filter_upwards [hconst] with ω hω
    rintro ⟨⟨ha, -⟩, hb⟩
    apply hb
    have := (hT ω ha).symm.trans hω
    rw [Set.mem_singleton_iff]
    field_simp
    linarith
  have hq' : unif (Set.Ico (1 - Real.exp (-10)) 1 \ {1 - m / (c * c)}) = 0 := by
    rw [← hu.law 4, Measure.map_apply (hu.meas 4) (measurableSet_Ico.diff (measurableSet_singleton _))]
    exact measure_eq_zero_iff_ae_notMem.mpr hq
  have e0 := Real.exp_pos (-10)
  have e1 : Real.exp (-10) < 1 := by rw [Real.exp_lt_one_iff]; norm_num
  unfold unif at hq'
  rw [measure_sdiff_null (by simp)] at hq'
  rw [Measure.restrict_apply measurableSet_Ico, Set.inter_eq_left.mpr (Set.Ico_subset_Ico (by linarith) le_rfl), Real.volume_Ico] at hq'
  rw [ENNReal.ofReal_eq_zero] at hq'
  linarith

end
end Verif.Props
