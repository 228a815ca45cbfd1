import Verif.Props.SphereRng
import Verif.Props.Batches
import Verif.Props.Runs

/-!
# C159: sphere runs one after the other with the same generator
-/

namespace Verif.Props
noncomputable section
open Classical Verif.Spec Verif.Traj Verif.Simulation Verif.Init Verif.Rng Verif.SphereRun Verif.SphereRng Verif.Weights Verif.Restart _root_.Verif.XF
open MeasureTheory ProbabilityTheory Filter Topology
open Verif (XF PyErr)
open Verif.Geometry (XV ofV3)

variable {n : ℕ}

/-- the domain, for the numbers of a generator; those that are drawn but not used are 0 here -/
theorem numbers_domain {a : Args 1} {S : Sampling 1 (n + 1)} {d : SphereArgs} {draws : ℕ → Draws 1 (n + 1)} (H : SphereDomain a S d draws)
    {N : ℕ} (hN : 0 < N) (nev : ℕ) {g : Gen} (hg : ∀ i, 0 < g.stream i ∧ g.stream i < 1) :
    SphereDomain (streamArgs a N fun j => photonNumbers g nev N j) (streamSampling S N fun j => photonNumbers g nev N j) d
      (streamDraws S N fun j => photonNumbers g nev N j) := by
  have h : ∀ j q, 0 ≤ photonNumbers g nev N j q ∧ photonNumbers g nev N j q < 1 := by
    intro j q
    unfold photonNumbers
    cases sphRow nev q with
    | none => norm_num
    | some r => exact ⟨(hg _).1.le, (hg _).2⟩
  exact
  { nt_pos := hN, sphere := H.sphere, smooth := H.smooth, diameter := H.diameter, diameter_pos := H.diameter_pos, spot := H.spot
    same_medium := H.same_medium, same_sample := H.same_sample, medium_pos := H.medium_pos, not_denser := H.not_denser, front := H.front
    back := H.back, particle := H.particle, matrix := H.matrix, fine := H.fine, draw_r := fun j => hg _, phase := H.phase
    min_angle := H.min_angle, phase_pos := H.phase_pos, phase_pos_rerun := H.phase_pos_rerun
    rand_phi := fun i j => h _ _, mu_scat := H.mu_scat, mu_mie := H.mu_mie, fine_step := H.fine_step
    rand_step := fun i j => h _ _, rand_mie := H.rand_mie, mu_abs := H.mu_abs
    rerun_phi := fun g i j => h _ _, rerun_step := fun g i j => h _ _
    rerun_mie := fun _ i => H.rand_mie i }

/-- the last generation of a run in which reflected light is either never run again or always -/
def lastGeneration (run : Bool) (maxDepth depth : ℕ) : ℕ := if run = true ∧ depth < maxDepth then defaultMaxCallDepth else depth

theorem calc_takes {N : ℕ} {a : Args N} {S : Sampling 1 (n + 1)} {S' : Sampling N (n + 1)} {d : SphereArgs} (g : Gen) (nev : ℕ)
    (hS : S'.p = S.p ∧ S'.mu_scat = S.mu_scat ∧ S'.mu_scat_mie = S.mu_scat_mie ∧ S'.mu_abs = S.mu_abs)
    (H : SphereDomain a S' d (streamDraws S N fun j => photonNumbers g nev N j)) (hon : OpticsOK d.nested)
    (hrun : d.run_fresnel_traj = false ∨ d.max_stuck < 0) (b : Bool) (k : ℕ) :
    ∀ (o : Optics), OpticsOK o → 0 < o.n_sample → o.n_sample ≤ o.n_tir → o.detection_angle = Real.pi / 2 →
      ∀ (M depth : ℕ) (t : SphTrajs N) (ω : Fin N → ℝ) (w w1 : World) (r : RT N),
      2 * (20 - depth) + min 1 (M - depth) = k → (depth = 0 ∨ M ≤ 20) → (∀ j, 0 ≤ ω j ∧ ω j ≤ 1) → GenOK d.thickness S.mu_abs ω t →
      (depth = 0 → ∀ j, ∃ θ : ℝ, entryAngle d.thickness t j = fin θ ∧ 0 ≤ θ ∧ θ ≤ Real.pi / 2) →
      w.gen b = ⟨g.stream, g.pos + genRow nev (depth + 1) * N⟩ →
      calcSphereRng b d.thickness ⟨S.p, S.mu_scat, S.mu_scat_mie, S.mu_abs⟩ d.run_fresnel_traj d.max_stuck
          d.nested o M depth (nev + depth) t w = .ok (r, w1) →
      w1.gen b = ⟨g.stream, g.pos + genRow nev (lastGeneration d.run_fresnel_traj M depth + 1) * N⟩ := by
  have hD := H.diameter_pos
  induction k using Nat.strong_induction_on with
  | _ k ih =>
    intro o ho hns hle hdet M depth t ω w w1 r hk hMd hω ht hinc hw h
    obtain ⟨c, ir, hg, hsum, hir, hpick⟩ := sphere_level_pick hD ho hns hle hdet (nev + depth) hω ht (decide (0 < depth))
      (fun h => hinc (by simpa using h))
    have hi01 : ∀ j, 0 ≤ c.i j ∧ c.i j ≤ 1 := fun j => ⟨hg.i0 j, hg.i1 j⟩
    obtain ⟨l, hl, hL, -, -, -, -⟩ := hpick (id : Fin N → Fin N)
    have hl' : level o (sphereGeometry (nev + depth) o d.thickness t) none (decide (0 < depth)) (fun (e : Fin (nev + depth)) j => t.weight e j) = .ok l := hl
    rw [calcSphereRng, hl'] at h
    by_cases hc : d.run_fresnel_traj = true ∧ depth < M
    swap
    · rw [lastGeneration, if_neg hc, ← hw]
      simp only [Bind.bind, Except.bind, dif_neg (fun h : d.run_fresnel_traj = true ∧ depth < M ∧ (fin d.max_stuck : XF) < l.totalStuck =>
          hc ⟨h.1, h.2.1⟩), Pure.pure, Except.pure] at h
      injection h with h
      have e : w = w1 := congrArg Prod.snd h
      rw [e]
    have hms : d.max_stuck < 0 := by
      rcases hrun with h | h
      · rw [h] at hc; exact absurd hc.1 (by decide)
      · exact h
    have hcase := fun j => sphere_cases o.n_tir o.n_medium d.thickness (rowsP (nev + depth) t.position) (rowsD (nev + depth) t.direction) j
    obtain ⟨F, hF, hFin⟩ := restart_inside (dir := rowsD (nev + depth) t.direction) hD (pos := rowsP (nev + depth) t.position) ht.inside
      (idx := Restart.restartIndices (sphereEvents (nev + depth) o d.thickness t).1 (sphereEvents (nev + depth) o d.thickness t).2.1
        (sphereEvents (nev + depth) o d.thickness t).2.2.2) (by
        intro j
        show Restart.restartIndices _ _ _ j = 0 ∨ ∃ e : Fin (nev + depth), _ ∧ Restart.restartIndices _ _ _ j = _
        unfold Restart.restartIndices
        rcases hcase j with ⟨h1, h2, -, h3⟩ | ⟨e, he, ⟨h1, h2, -, h3⟩ | ⟨h1, h2, -, h3⟩ | ⟨h1, h2, -, h3⟩⟩
        · exact Or.inl (by rw [sphereEvents]; omega)
        · exact Or.inr ⟨e, he, by rw [sphereEvents]; omega⟩
        · exact Or.inr ⟨e, he, by rw [sphereEvents]; omega⟩
        · exact Or.inr ⟨e, he, by rw [sphereEvents]; omega⟩)
    have hω' : ∀ j, 0 ≤ c.fr j + c.ft j + c.s j ∧ c.fr j + c.ft j + c.s j ≤ 1 := by
      intro j
      have := hg.fr0 j; have := hg.ft0 j; have := hg.s0 j
      have := hg.Pr0 j; have := hg.Pt0 j
      have := hsum j
      have : c.i j * ω j ≤ 1 := by nlinarith [hi01 j, hω j]
      have e1 : c.fr j = c.r j - c.Pr j := rfl
      have e2 : c.ft j = c.t j - c.Pt j := rfl
      constructor <;> linarith
    have hN0 : (N : ℝ) ≠ 0 := by exact_mod_cast H.nt_pos.ne'
    have hstk : (fin d.max_stuck : XF) < l.totalStuck := by
      rw [hL.total, fin_div _ hN0, fin_lt]
      refine lt_of_lt_of_le hms (div_nonneg (Finset.sum_nonneg fun j _ => ?_) (Nat.cast_nonneg N))
      exact (hω' j).1
    have hW : Restart.restartWeight l.exit.reflFresnel l.exit.transFresnel l.out.stuck =
        fun j => (fin (c.fr j + c.ft j + c.s j) : XF) := by
      funext j
      rw [Restart.restartWeight, hL.reflFresnel, hL.transFresnel, hL.stuck, fin_add, fin_add]
      rfl
    obtain ⟨t', ht', hgen⟩ := rerun_ok H (nev + (depth + 1)) (depth + 1) (ω := fun j => c.fr j + c.ft j + c.s j) hFin
    rw [hS.1, hS.2.1, hS.2.2.1, hS.2.2.2] at ht'
    rw [hS.2.2.2] at hgen
    have hnum := rerun_numbers b nev (depth + 1) S w g hw ⟨S.p, S.mu_scat, S.mu_scat_mie, S.mu_abs⟩ rfl F fun j => fin (c.fr j + c.ft j + c.s j)
    rw [ht'] at hnum
    simp only [Bind.bind, Except.bind, dif_pos (And.intro hc.1 (And.intro hc.2 hstk)), hF, hW, Nat.add_assoc, hnum, Except.map] at h
    rcases hy : calcSphereRng b d.thickness ⟨S.p, S.mu_scat, S.mu_scat_mie, S.mu_abs⟩ d.run_fresnel_traj d.max_stuck d.nested d.nested
      defaultMaxCallDepth (depth + 1) (nev + (depth + 1)) t' (w.advance b (rerunCount N (nev + (depth + 1)))) with er | ⟨r', v⟩
    · rw [hy] at h; cases h
    rw [hy] at h
    simp only [Pure.pure, Except.pure] at h
    injection h with h
    have e2 : v = w1 := congrArg Prod.snd h
    subst e2
    have hlt : 2 * (20 - (depth + 1)) + min 1 (defaultMaxCallDepth - (depth + 1)) < k := by
      have := hc.2
      unfold defaultMaxCallDepth
      omega
    have hs : 0 < d.n_sample := lt_of_lt_of_le H.medium_pos H.not_denser
    have hrec := ih _ hlt d.nested hon hs le_rfl rfl defaultMaxCallDepth (depth + 1) t' _ _ v r' rfl (Or.inr le_rfl) hω' hgen
      (fun h => absurd h (by omega)) (by
        rw [gen_advance, hw]
        congr 1
        simp only [genRow, rerunCount]
        ring) hy
    rw [hrec, lastGeneration, lastGeneration, if_pos hc]
    congr 4
    by_cases h20 : depth + 1 < defaultMaxCallDepth
    · rw [if_pos ⟨hc.1, h20⟩]
    · rw [if_neg (fun h => h20 h.2)]
      have := hc.2
      unfold defaultMaxCallDepth at *
      omega

/-- the numbers that a run with `N` photons takes -/
def sphereTaken (d : SphereArgs) (nev N : ℕ) : ℕ := genRow nev (lastGeneration d.run_fresnel_traj d.max_call_depth 0 + 1) * N

theorem run_takes {a : Args 1} {S : Sampling 1 (n + 1)} {d : SphereArgs} {draws : ℕ → Draws 1 (n + 1)} (H : SphereDomain a S d draws)
    (hdet : d.detection_angle = Real.pi / 2)
    (hfine : d.fine_roughness = 0 ∨ ∀ p m, d.n_particle = some p → d.n_matrix = some m → d.n_sample ≤ max p m)
    (hmie : S.mu_scat_mie = none ∨ S.fine_roughness = 0) (hrun : d.run_fresnel_traj = false ∨ d.max_stuck < 0) (nev N : ℕ) (b : Bool) {w w1 : World}
    (hw : ∀ i, 0 < (w.gen b).stream i ∧ (w.gen b).stream i < 1) {rt : RT (N + 1)}
    (h : runSphereRng b b nev (sphereSettings a (N + 1)) (streamSampling S (N + 1) fun _ _ => 0) d w = .ok (rt, w1)) :
    w1.gen b = ⟨(w.gen b).stream, (w.gen b).pos + sphereTaken d nev (N + 1)⟩ := by
  have H' := numbers_domain H (Nat.succ_pos N) nev hw
  obtain ⟨ho, hon⟩ := sphere_optics H
  obtain ⟨t, ht, hgen, hent⟩ := sphere_simulate H' nev
  have hs : 0 < d.n_sample := lt_of_lt_of_le H.medium_pos H.not_denser
  have hns : d.optics.n_sample ≤ d.optics.n_tir :=
    nTir_ge (d := ⟨d.n_medium, d.n_sample, 0, 0, none, none, 0, d.fine_roughness, d.n_particle, d.n_matrix, none⟩) H.fine hfine
  unfold runSphereRng at h
  rw [simulate_sphere_numbers b nev a S w H.sphere hmie, ht] at h
  simp only [Except.map, Bind.bind, Except.bind] at h
  exact calc_takes (N := N + 1) (w.gen b) nev (S' := streamSampling S (N + 1) fun j => photonNumbers (w.gen b) nev (N + 1) j) ⟨rfl, rfl, rfl, rfl⟩ H' hon hrun b _ d.optics ho hs hns hdet d.max_call_depth 0 _ (fun _ => 1) _ w1 rt rfl (Or.inl rfl)
    (fun _ => by norm_num) hgen (fun _ => hent) (gen_advance _ _ _) h

theorem genRow_sum (nev K : ℕ) : genRow nev K = 2 + ∑ g ∈ Finset.range K, (2 * (nev + g - 1) + (nev + g)) := by
  induction K with
  | zero => rfl
  | succ K ih => rw [Finset.sum_range_succ, genRow, ih]; ring

/-- C159: how many numbers a sphere run takes.  If reflected light is not run again, there is one generation; if it is always run again
(`max_stuck` negative), there are 20 more, to the deepest nested call, whatever happens to the photons.  Generation `g` takes, for each photon, two
numbers for each event but one, and one number for each event; it has `nev + g` events. -/
theorem C159_numbers_taken {a : Args 1} {S : Sampling 1 (n + 1)} {d : SphereArgs} {draws : ℕ → Draws 1 (n + 1)} (H : SphereDomain a S d draws)
    (hdet : d.detection_angle = Real.pi / 2)
    (hfine : d.fine_roughness = 0 ∨ ∀ p m, d.n_particle = some p → d.n_matrix = some m → d.n_sample ≤ max p m)
    (hmie : S.mu_scat_mie = none ∨ S.fine_roughness = 0) (hrun : d.run_fresnel_traj = false ∨ d.max_stuck < 0) (nev N : ℕ) (b : Bool) {w w1 : World}
    (hw : ∀ i, 0 < (w.gen b).stream i ∧ (w.gen b).stream i < 1) {rt : RT (N + 1)}
    (h : runSphereRng b b nev (sphereSettings a (N + 1)) (streamSampling S (N + 1) fun _ _ => 0) d w = .ok (rt, w1)) :
    (w1.gen b).pos = (w.gen b).pos + (2 + ∑ g ∈ Finset.range ((if d.run_fresnel_traj = true ∧ 0 < d.max_call_depth then 20 else 0) + 1),
      (2 * (nev + g - 1) + (nev + g))) * (N + 1) := by
  rw [run_takes H hdet hfine hmie hrun nev N b hw h, ← genRow_sum]
  rfl

/-- the draws of photon `j` of `N`, from the `K` numbers one run takes from the generator -/
def sphereBlock (K N nev : ℕ) (y : Fin K → ℝ) (j : ℕ) (q : SphDraw) : ℝ :=
  match deepRow nev q with
  | some r => if h : r * N + j < K then y ⟨r * N + j, h⟩ else 1 / 2
  | none => 1 / 2

theorem sphereBlock_meas (K N nev j : ℕ) : Measurable fun y => sphereBlock K N nev y j := by
  refine measurable_pi_lambda _ fun q => ?_
  unfold sphereBlock
  cases deepRow nev q with
  | none => exact measurable_const
  | some r =>
    dsimp only
    by_cases h : r * N + j < K
    · simp only [h, dif_pos]; exact measurable_pi_apply _
    · simp only [h, dif_neg, not_false_eq_true]; exact measurable_const

/-- reflectance and transmittance of a run of `N + 1` photons, from the `K` numbers it takes -/
def sphereRT (nev : ℕ) (a : Args 1) (S : Sampling 1 (n + 1)) (d : SphereArgs) (N K : ℕ) (y : Fin K → ℝ) : ℝ × ℝ :=
  ((∑ j : Fin (N + 1), oneR nev a S d (sphereBlock K (N + 1) nev y j)) / ((N + 1 : ℕ) : ℝ),
    (∑ j : Fin (N + 1), oneT nev a S d (sphereBlock K (N + 1) nev y j)) / ((N + 1 : ℕ) : ℝ))

theorem sphereRT_meas {a : Args 1} {S : Sampling 1 (n + 1)} {d : SphereArgs} {draws : ℕ → Draws 1 (n + 1)} (H : SphereDomain a S d draws)
    (nev N K : ℕ) : Measurable (sphereRT nev a S d N K) := by
  obtain ⟨mR, mT⟩ := one_meas H nev
  refine Measurable.prodMk ?_ ?_
  · exact (Finset.measurable_sum (f := fun (j : Fin (N + 1)) y => oneR nev a S d (sphereBlock K (N + 1) nev y j)) _ fun j _ =>
      mR.comp (sphereBlock_meas K (N + 1) nev j)).div_const _
  · exact (Finset.measurable_sum (f := fun (j : Fin (N + 1)) y => oneT nev a S d (sphereBlock K (N + 1) nev y j)) _ fun j _ =>
      mT.comp (sphereBlock_meas K (N + 1) nev j)).div_const _

theorem sphere_run_block {a : Args 1} {S : Sampling 1 (n + 1)} {d : SphereArgs} {draws : ℕ → Draws 1 (n + 1)} (H : SphereDomain a S d draws)
    (hdet : d.detection_angle = Real.pi / 2)
    (hfine : d.fine_roughness = 0 ∨ ∀ p m, d.n_particle = some p → d.n_matrix = some m → d.n_sample ≤ max p m)
    (hmie : S.mu_scat_mie = none ∨ S.fine_roughness = 0) (hrun : d.run_fresnel_traj = false ∨ d.max_stuck < 0) (nev N : ℕ) (b : Bool) {w w1 : World}
    (hw : ∀ i, 0 < (w.gen b).stream i ∧ (w.gen b).stream i < 1) {rt : RT (N + 1)}
    (h : runSphereRng b b nev (sphereSettings a (N + 1)) (streamSampling S (N + 1) fun _ _ => 0) d w = .ok (rt, w1)) :
    (val rt.R, val rt.T) = sphereRT nev a S d N (sphereTaken d nev (N + 1)) (fun q => (w.gen b).stream ((w.gen b).pos + q)) ∧
      0 ≤ val rt.R ∧ 0 ≤ val rt.T ∧ val rt.R + val rt.T ≤ 1 := by
  have ht := run_takes H hdet hfine hmie hrun nev N b hw h
  set K := sphereTaken d nev (N + 1) with hK
  let g' : Gen := ⟨fun i => if i < (w.gen b).pos + K then (w.gen b).stream i else 1 / 2, (w.gen b).pos⟩
  let w' : World := ⟨g', g'⟩
  have hg' : w'.gen b = g' := by cases b <;> rfl
  obtain ⟨w1', h', -⟩ := C158_reads_no_further b nev (sphereSettings a (N + 1)) (streamSampling S (N + 1) fun _ _ => 0) d w w1 w' rt H.sphere hmie h
    (by rw [hg']) (by
      intro i _ hi
      rw [hg']
      show (if _ then _ else _) = _
      rw [ht] at hi
      exact if_pos hi)
  let x : ℕ → SphDraw → ℝ := fun j q => sphereBlock K (N + 1) nev (fun q => (w.gen b).stream ((w.gen b).pos + q)) j q
  have hx : ∀ j, Inner (x j) := by
    intro j q
    show 0 < sphereBlock _ _ _ _ _ _ ∧ sphereBlock _ _ _ _ _ _ < 1
    unfold sphereBlock
    cases deepRow nev q with
    | none => norm_num
    | some r =>
      dsimp only
      split
      · exact hw _
      · norm_num
  obtain ⟨rt', k1, k2, k3⟩ := one_eq H hdet hfine hmie hrun nev N hx
  have e := sphere_numbers (nt := N + 1) b nev a S d w' H.sphere hmie
  rw [stream_congr nev (N + 1) a S d hmie (y := x) (by
    intro j hj q hq
    obtain ⟨r, hr⟩ := Option.isSome_iff_exists.mp hq
    show _ = sphereBlock _ _ _ _ _ _
    simp only [photonNumbers, (deepRow_eq hr).1, sphereBlock, hr, hg', g']
    by_cases hlt : r * (N + 1) + j < K
    · rw [dif_pos hlt, if_pos (by omega), add_assoc]
    · rw [dif_neg hlt, if_neg (by omega)]), k1, h'] at e
  injection e with e
  dsimp only at e
  subst e
  have hfr := fun j : Fin (N + 1) => one_fraction H nev (x j)
  have hN : (0 : ℝ) < ((N + 1 : ℕ) : ℝ) := by exact_mod_cast Nat.succ_pos N
  rw [k2, k3]
  refine ⟨rfl, div_nonneg (Finset.sum_nonneg fun j _ => (hfr j).1) hN.le, div_nonneg (Finset.sum_nonneg fun j _ => (hfr j).2.1) hN.le, ?_⟩
  show _ / _ + _ / _ ≤ (1 : ℝ)
  rw [← add_div, div_le_one hN, ← Finset.sum_add_distrib]
  calc _ ≤ ∑ _j : Fin (N + 1), (1 : ℝ) := Finset.sum_le_sum fun j _ => (hfr j).2.2
    _ = _ := by simp

/-- Sphere runs one after the other, each of which works with the generator in the state in which the previous one left it, re-runs of reflected light
included.  Run `i` has `N i + 1` photons, `nev i` events and settings `a i`, `S i`, `d i`, in the domain of the statistics of spheres (C145); `w i` is the
state of the generators before it, `rt i` its result.  The generator delivers the numbers `u 0`, `u 1`, ... and has delivered `pos` of them before. -/
structure SuccessiveSpheres {Ω : Type} (u : ℕ → Ω → ℝ) (b : Bool) (pos : ℕ) (N nev n : ℕ → ℕ) (a : ℕ → Args 1)
    (S : (i : ℕ) → Sampling 1 (n i + 1)) (d : ℕ → SphereArgs) (draws : (i : ℕ) → ℕ → Draws 1 (n i + 1)) (w : ℕ → Ω → World)
    (rt : (i : ℕ) → Ω → RT (N i + 1)) : Prop where
  domain : ∀ i, SphereDomain (a i) (S i) (d i) (draws i)
  detector : ∀ i, (d i).detection_angle = Real.pi / 2
  inside : ∀ i, (d i).fine_roughness = 0 ∨ ∀ p m, (d i).n_particle = some p → (d i).n_matrix = some m → (d i).n_sample ≤ max p m
  mie : ∀ i, (S i).mu_scat_mie = none ∨ (S i).fine_roughness = 0
  reruns : ∀ i, (d i).run_fresnel_traj = false ∨ (d i).max_stuck < 0
  start : ∀ ω, (w 0 ω).gen b = ⟨fun q => u q ω, pos⟩
  next : ∀ i ω, runSphereRng b b (nev i) (sphereSettings (a i) (N i + 1)) (streamSampling (S i) (N i + 1) fun _ _ => 0) (d i) (w i ω) =
    .ok (rt i ω, w (i + 1) ω)

section
variable {Ω : Type} [MeasurableSpace Ω] {P : Measure Ω} [IsProbabilityMeasure P] {u : ℕ → Ω → ℝ} {b : Bool} {pos : ℕ} {N nev n : ℕ → ℕ} {a : ℕ → Args 1}
    {S : (i : ℕ) → Sampling 1 (n i + 1)} {d : ℕ → SphereArgs} {draws : (i : ℕ) → ℕ → Draws 1 (n i + 1)} {w : ℕ → Ω → World}
    {rt : (i : ℕ) → Ω → RT (N i + 1)}

omit [MeasurableSpace Ω] in
theorem SuccessiveSpheres.gen (H : SuccessiveSpheres u b pos N nev n a S d draws w rt) (hr : ∀ i ω, 0 < u i ω ∧ u i ω < 1) (i : ℕ) (ω : Ω) :
    (w i ω).gen b = ⟨fun q => u q ω, pos + before (fun i => sphereTaken (d i) (nev i) (N i + 1)) i⟩ := by
  induction i with
  | zero => simpa [before] using H.start ω
  | succ i ih =>
    have := run_takes (H.domain i) (H.detector i) (H.inside i) (H.mie i) (H.reruns i) (nev i) (N i) b (w := w i ω) (by rw [ih]; exact fun q => hr q ω)
      (H.next i ω)
    rw [this, ih, before_succ, ← add_assoc]

omit [MeasurableSpace Ω] in
theorem SuccessiveSpheres.result (H : SuccessiveSpheres u b pos N nev n a S d draws w rt) (hr : ∀ i ω, 0 < u i ω ∧ u i ω < 1) (i : ℕ) (ω : Ω) :
    (val (rt i ω).R, val (rt i ω).T) = sphereRT (nev i) (a i) (S i) (d i) (N i) (sphereTaken (d i) (nev i) (N i + 1))
        (block u pos (fun i => sphereTaken (d i) (nev i) (N i + 1)) i ω) ∧
      0 ≤ val (rt i ω).R ∧ 0 ≤ val (rt i ω).T ∧ val (rt i ω).R + val (rt i ω).T ≤ 1 := by
  have hg := H.gen hr i ω
  have hrun := sphere_run_block (H.domain i) (H.detector i) (H.inside i) (H.mie i) (H.reruns i) (nev i) (N i) b (w := w i ω)
    (by rw [hg]; exact fun q => hr q ω) (H.next i ω)
  refine ⟨?_, hrun.2⟩
  rw [hrun.1, hg]
  rfl

/-- C159: sphere runs one after the other with the same generator are independent: no run's reflectance and transmittance say anything about those of
the others, whatever the settings and the numbers of photons and events of each, and also if reflected light is run again with the same generator. -/
theorem C159_independent_runs (hu : UniformDraws P u) (hr : ∀ i ω, 0 < u i ω ∧ u i ω < 1)
    (H : SuccessiveSpheres u b pos N nev n a S d draws w rt) :
    (∀ i, Measurable fun ω => (val (rt i ω).R, val (rt i ω).T)) ∧ iIndepFun (fun i ω => (val (rt i ω).R, val (rt i ω).T)) P := by
  have e : (fun i ω => (val (rt i ω).R, val (rt i ω).T)) =
      fun i => sphereRT (nev i) (a i) (S i) (d i) (N i) (sphereTaken (d i) (nev i) (N i + 1)) ∘
        block u pos (fun i => sphereTaken (d i) (nev i) (N i + 1)) i := by
    funext i ω
    exact (H.result hr i ω).1
  have hm := fun i => sphereRT_meas (H.domain i) (nev i) (N i) (sphereTaken (d i) (nev i) (N i + 1))
  constructor
  · intro i
    have := (hm i).comp (block_meas hu pos (fun i => sphereTaken (d i) (nev i) (N i + 1)) i)
    exact (congrFun e i) ▸ this
  · rw [e]
    exact (block_indep hu pos _).comp _ hm
end

section
variable {Ω : Type} [MeasurableSpace Ω] {P : Measure Ω} [IsProbabilityMeasure P] {u : ℕ → Ω → ℝ} {b : Bool} {pos N nev n : ℕ} {a : Args 1}
    {S : Sampling 1 (n + 1)} {d : SphereArgs} {draws : ℕ → Draws 1 (n + 1)} {w : ℕ → Ω → World} {rt : ℕ → Ω → RT (N + 1)}

/-- repeated runs with the same settings: independent, with the same distribution, between 0 and 1 -/
theorem repeated_spheres (hu : UniformDraws P u) (hr : ∀ i ω, 0 < u i ω ∧ u i ω < 1)
    (H : SuccessiveSpheres u b pos (fun _ => N) (fun _ => nev) (fun _ => n) (fun _ => a) (fun _ => S) (fun _ => d) (fun _ => draws) w rt)
    {X : ℕ → Ω → ℝ} (hX : (X = fun i ω => val (rt i ω).R) ∨ (X = fun i ω => val (rt i ω).T)) :
    (∀ i, Measurable (X i)) ∧ iIndepFun X P ∧ (∀ i, IdentDistrib (X i) (X 0) P P) ∧ (∀ i ω, X i ω ∈ Set.Icc (0 : ℝ) 1) := by
  obtain ⟨hm, hi⟩ := C159_independent_runs hu hr H
  obtain ⟨g, hg, hXg⟩ : ∃ g : ℝ × ℝ → ℝ, Measurable g ∧ X = fun i ω => g (val (rt i ω).R, val (rt i ω).T) := by
    rcases hX with h | h
    · exact ⟨Prod.fst, measurable_fst, h⟩
    · exact ⟨Prod.snd, measurable_snd, h⟩
  refine ⟨fun i => ?_, ?_, fun i => ?_, fun i ω => ?_⟩
  · rw [hXg]; exact hg.comp (hm i)
  · rw [hXg]; exact hi.comp (fun _ => g) fun _ => hg
  · have hB := sphereRT_meas (H.domain 0) nev N (sphereTaken d nev (N + 1))
    have e : ∀ i, X i = fun ω => g (sphereRT nev a S d N (sphereTaken d nev (N + 1)) (block u pos (fun _ => sphereTaken d nev (N + 1)) i ω)) := by
      intro i
      rw [hXg]
      funext ω
      dsimp only
      rw [(H.result hr i ω).1]
    have hbl := fun i => block_meas hu pos (fun _ => sphereTaken d nev (N + 1)) i
    rw [e i, e 0]
    have hid : IdentDistrib (block u pos (fun _ => sphereTaken d nev (N + 1)) i) (block u pos (fun _ => sphereTaken d nev (N + 1)) 0) P P :=
      ⟨(hbl i).aemeasurable, (hbl 0).aemeasurable,
        (block_law hu pos (fun _ => sphereTaken d nev (N + 1)) i).trans (block_law hu pos (fun _ => sphereTaken d nev (N + 1)) 0).symm⟩
    exact hid.comp (hg.comp hB)
  · have h := (H.result hr i ω).2
    rcases hX with e | e <;> rw [e] <;> constructor <;> dsimp only <;> linarith [h.1, h.2.1, h.2.2]

/-- C159: the average of the reflectance (or the transmittance) over `k` sphere runs with the same settings and the same generator has the expected value
of one run, and a variance that is smaller by the factor `k`; the standard error calculated from the spread of the `k` results is right on average. -/
theorem C159_standard_error (hu : UniformDraws P u) (hr : ∀ i ω, 0 < u i ω ∧ u i ω < 1)
    (H : SuccessiveSpheres u b pos (fun _ => N) (fun _ => nev) (fun _ => n) (fun _ => a) (fun _ => S) (fun _ => d) (fun _ => draws) w rt)
    {X : ℕ → Ω → ℝ} (hX : (X = fun i ω => val (rt i ω).R) ∨ (X = fun i ω => val (rt i ω).T)) {k : ℕ} (hk : 0 < k) :
    ∫ ω, average X k ω ∂P = ∫ ω, X 0 ω ∂P ∧ variance (average X k) P = variance (X 0) P / k ∧
      (1 < k → ∫ ω, standardErrorSq X k ω ∂P = variance (X 0) P / k) := by
  obtain ⟨hm, hi, hid, hb⟩ := repeated_spheres hu hr H hX
  exact standard_error_core hm hi hid hb hk

/-- C159: with more and more sphere runs, the average tends to the expected value of one run, with probability one; and the probability that it is off by
`c` or more is at most the variance of one run divided by `k c²`. -/
theorem C159_average_settles (hu : UniformDraws P u) (hr : ∀ i ω, 0 < u i ω ∧ u i ω < 1)
    (H : SuccessiveSpheres u b pos (fun _ => N) (fun _ => nev) (fun _ => n) (fun _ => a) (fun _ => S) (fun _ => d) (fun _ => draws) w rt)
    {X : ℕ → Ω → ℝ} (hX : (X = fun i ω => val (rt i ω).R) ∨ (X = fun i ω => val (rt i ω).T)) :
    (∀ᵐ ω ∂P, Tendsto (fun k => average X k ω) atTop (𝓝 (∫ ω, X 0 ω ∂P))) ∧
      ∀ k, 0 < k → ∀ c, 0 < c → P.real {ω | c ≤ |average X k ω - ∫ ω, X 0 ω ∂P|} ≤ variance (X 0) P / (k * c ^ 2) := by
  obtain ⟨hm, hi, hid, hb⟩ := repeated_spheres hu hr H hX
  exact average_settles_core hm hi hid hb

/-- C159: error bars: if the results of single runs scatter, then the probability that the average over `k` runs is within `z` standard errors of the
expected value tends to that with which a standard normal variable lies between -z and z.  If they do not scatter, every run gives the expected value. -/
theorem C159_error_bars (hu : UniformDraws P u) (hr : ∀ i ω, 0 < u i ω ∧ u i ω < 1)
    (H : SuccessiveSpheres u b pos (fun _ => N) (fun _ => nev) (fun _ => n) (fun _ => a) (fun _ => S) (fun _ => d) (fun _ => draws) w rt)
    {X : ℕ → Ω → ℝ} (hX : (X = fun i ω => val (rt i ω).R) ∨ (X = fun i ω => val (rt i ω).T)) :
    (variance (X 0) P ≠ 0 → ∀ z : ℝ,
      Tendsto (fun k : ℕ => P.real {ω | |average X k ω - ∫ ω, X 0 ω ∂P| ≤ z * √(variance (X 0) P / k)}) atTop
        (𝓝 ((gaussianReal 0 1).real (Set.Icc (-z) z)))) ∧
    (variance (X 0) P = 0 → ∀ᵐ ω ∂P, ∀ i, X i ω = ∫ ω, X 0 ω ∂P) := by
  obtain ⟨hm, hi, hid, hb⟩ := repeated_spheres hu hr H hX
  refine ⟨fun hv z => error_bars_core hm hi hid hb hv z, fun hv => ?_⟩
  rw [ae_all_iff]
  intro i
  have hL : MemLp (X i) 2 P := memLp_of_bounded (Eventually.of_forall (hb i)) (hm i).aestronglyMeasurable 2
  have := ae_eq_integral_of_variance_eq_zero hL ((hid i).variance_eq.trans hv)
  rw [(hid i).integral_eq] at this
  exact this

/-- there are independent uniform numbers all of which are strictly between 0 and 1 -/
theorem uniformDraws_inner (ι : Type) :
    ∃ (Ω : Type) (_ : MeasurableSpace Ω) (P : Measure Ω) (U : ι → Ω → ℝ), IsProbabilityMeasure P ∧ UniformDraws P U ∧
      ∀ i ω, 0 < U i ω ∧ U i ω < 1 := by
  obtain ⟨Ω, mΩ, P, W, hP, hW⟩ := uniformDraws_exist ι
  let f : ℝ → ℝ := fun x => if 0 < x ∧ x < 1 then x else 1 / 2
  have hf : Measurable f := Measurable.ite ((measurableSet_lt measurable_const measurable_id).inter (measurableSet_lt measurable_id measurable_const))
    measurable_id measurable_const
  refine ⟨Ω, mΩ, P, fun i ω => f (W i ω), hP, ⟨fun i => hf.comp (hW.meas i), fun i => ?_, ?_⟩, fun i ω => ?_⟩
  · have h1 : (fun ω => f (W i ω)) = f ∘ W i := rfl
    rw [h1, ← Measure.map_map hf (hW.meas i), hW.law, unif]
    conv_rhs => rw [← Measure.map_id (μ := volume.restrict (Set.Ico (0 : ℝ) 1))]
    refine Measure.map_congr ?_
    have h0 : ∀ᵐ x : ℝ ∂volume.restrict (Set.Ico (0 : ℝ) 1), x ≠ 0 := ae_restrict_of_ae (Measure.ae_ne volume 0)
    filter_upwards [ae_restrict_mem measurableSet_Ico, h0] with u hu h0
    exact if_pos ⟨lt_of_le_of_ne hu.1 (Ne.symm h0), hu.2⟩
  · exact hW.indep.comp (fun _ => f) (fun _ => hf)
  · show 0 < (if _ then _ else _ : ℝ) ∧ (if _ then _ else _ : ℝ) < 1
    split
    · assumption
    · norm_num

omit [MeasurableSpace Ω] in
/-- Non-vacuity of C159: all sphere simulations in the domain can be run one after the other -/
theorem successive_spheres (H : SphereDomain a S d draws) (hdet : d.detection_angle = Real.pi / 2)
    (hfine : d.fine_roughness = 0 ∨ ∀ p m, d.n_particle = some p → d.n_matrix = some m → d.n_sample ≤ max p m)
    (hmie : S.mu_scat_mie = none ∨ S.fine_roughness = 0) (hrun : d.run_fresnel_traj = false ∨ d.max_stuck < 0) (nev N : ℕ) (b : Bool) (pos : ℕ)
    (hr : ∀ i ω, 0 < u i ω ∧ u i ω < 1) :
    ∃ (w : ℕ → Ω → World) (rt : ℕ → Ω → RT (N + 1)),
      SuccessiveSpheres u b pos (fun _ => N) (fun _ => nev) (fun _ => n) (fun _ => a) (fun _ => S) (fun _ => d) (fun _ => draws) w rt := by
  let V := {v : World // (∀ i, 0 < (v.gen b).stream i ∧ (v.gen b).stream i < 1)}
  have step : ∀ w : V, ∃ (r : RT (N + 1)) (w1 : V),
      runSphereRng b b nev (sphereSettings a (N + 1)) (streamSampling S (N + 1) fun _ _ => 0) d w.1 = .ok (r, w1.1) := by
    rintro ⟨w, hw⟩
    obtain ⟨r, w1, h1⟩ := sphere_run_ok H hdet hfine hmie hrun nev N b w hw
    exact ⟨r, ⟨w1, by rw [run_takes H hdet hfine hmie hrun nev N b hw h1]; exact hw⟩, h1⟩
  choose r next hnext using step
  have hg : ∀ ω, World.gen ⟨⟨fun q => u q ω, pos⟩, ⟨fun q => u q ω, pos⟩⟩ b = ⟨fun q => u q ω, pos⟩ := fun ω => by cases b <;> rfl
  let W : ℕ → Ω → V := fun i ω => next^[i] ⟨⟨⟨fun q => u q ω, pos⟩, ⟨fun q => u q ω, pos⟩⟩, fun q => by rw [hg]; exact hr q ω⟩
  exact ⟨fun i ω => (W i ω).1, fun i ω => r (W i ω), fun _ => H, fun _ => hdet, fun _ => hfine, fun _ => hmie, fun _ => hrun, hg,
      fun i ω => (hnext (W i ω)).trans (by
        show _ = Except.ok (_, (next^[i + 1] _).1)
        rw [Function.iterate_succ_apply'])⟩

/-- Non-vacuity of C159: runs of 3 photons in the sphere of C158 with 2 events, without and with re-runs of reflected light. -/
example (run : Bool) : ∃ (Ω : Type) (_ : MeasurableSpace Ω) (P : Measure Ω) (_ : IsProbabilityMeasure P) (u : ℕ → Ω → ℝ) (a : Args 1) (S : Sampling 1 3)
    (d : SphereArgs) (draws : ℕ → Draws 1 3) (w : ℕ → Ω → World) (rt : ℕ → Ω → RT (2 + 1)), UniformDraws P u ∧ (∀ i ω, 0 < u i ω ∧ u i ω < 1) ∧
    SuccessiveSpheres u true 0 (fun _ => 2) (fun _ => 2) (fun _ => 2) (fun _ => a) (fun _ => S) (fun _ => d) (fun _ => draws) w rt ∧
    d.run_fresnel_traj = run ∧ S.mu_abs = 1 := by
  obtain ⟨Ω, mΩ, P, u, hP, hu, hr⟩ := uniformDraws_inner ℕ
  have h := demo_sphereRun 1 zero_le_one
  let d : SphereArgs := ⟨1, 3 / 2, 2, none, none, Real.pi / 2, 0, none, none, run, 20, -1⟩
  have H : SphereDomain _ _ d _ :=
    { h with diameter := h.diameter, diameter_pos := h.diameter_pos, spot := h.spot, same_medium := h.same_medium, same_sample := h.same_sample
             medium_pos := h.medium_pos, not_denser := h.not_denser, front := h.front, back := h.back, particle := h.particle, matrix := h.matrix
             fine := h.fine }
  obtain ⟨w, rt, HS⟩ := successive_spheres H rfl (Or.inl rfl) (Or.inl rfl) (Or.inr (by norm_num : (-1 : ℝ) < 0)) 2 2 true 0 hr
  exact ⟨Ω, mΩ, P, hP, u, _, _, d, _, w, rt, hu, hr, HS, rfl, rfl⟩
end
end
end Verif.Props
