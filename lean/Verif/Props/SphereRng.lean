import Verif.Model.SphereRng
import Verif.Props.SphereStat
import Verif.Props.Rng

/-!
# C158: sphere simulations with a generator of one's own
-/

namespace Verif.Props
noncomputable section
open Classical Verif.Spec Verif.Traj Verif.Simulation Verif.Init Verif.Rng Verif.SphereRun Verif.SphereRng _root_.Verif.XF
open MeasureTheory ProbabilityTheory Filter Topology
open Verif (XF PyErr)
open Verif.Geometry (XV)

variable {nt n : ℕ}

/-! ## Which generator matters -/

theorem pyRound_zero : (pyRound ((nt : ℝ) * 0)).toNat = 0 := by
  rw [mul_zero, pyRound]
  norm_num

/-- the numbers a simulation of `N` events draws after `initialize` -/
def rerunCount (nt N : ℕ) : ℕ := (N - 1) * nt + (N - 1) * nt + N * nt

theorem rerun_local (b : Bool) (N : ℕ) (m : Medium (n + 1)) (start : Fin nt → XV × XV) (W : Fin nt → XF) (w : World) :
    rerunRng b N m start W w = (rerunRng true N m start W (alone (w.gen b))).map fun r => (r.1, w.advance b (rerunCount nt N)) := by
  unfold rerunRng
  simp only [sampleAnglesRng, sampleStepRng, gen_advance, advance_advance, gen_alone, Bind.bind, Except.bind, pyRound_zero, advance_zero, ite_self]
  generalize sampleAnglesRng1 _ _ _ _ _ = y
  rcases y with e | ang
  · rfl
  simp only [gen_advance, advance_advance, gen_alone, Except.map]
  generalize sampleStep _ _ _ _ _ _ = z
  rcases z with e | st
  · rfl
  rfl

theorem calc_local (D : ℝ) (m : Medium (n + 1)) (run : Bool) (max_stuck : ℝ) (on : Weights.Optics) :
    ∀ (M : ℕ) (o : Weights.Optics) (maxDepth depth nev : ℕ) (t : SphTrajs nt) (g : Gen),
      2 * (Weights.defaultMaxCallDepth - depth) + min 1 (maxDepth - depth) < M →
      ∃ e : Except PyErr (Weights.RT nt × ℕ), ∀ b (w : World), w.gen b = g →
        calcSphereRng b D m run max_stuck on o maxDepth depth nev t w = e.map fun r => (r.1, w.advance b r.2) := by
  intro M
  induction M with
  | zero => intro _ _ _ _ _ _ h; omega
  | succ M ih =>
    intro o maxDepth depth nev t g hM
    rcases hl : Weights.level o (sphereGeometry nev o D t) none (decide (0 < depth)) (fun (e : Fin nev) j => t.weight e j) with er | l
    · refine ⟨.error er, fun b w hw => ?_⟩
      rw [calcSphereRng, hl]; rfl
    by_cases hc : run = true ∧ depth < maxDepth ∧ (fin max_stuck : XF) < l.totalStuck
    swap
    · refine ⟨.ok (Weights.distribute l.exit l.det l.out.stuck .sphere false, 0), fun b w hw => ?_⟩
      rw [calcSphereRng, hl]
      simp only [Bind.bind, Except.bind, dif_neg hc, Except.map, advance_zero, Pure.pure, Except.pure]
    rcases hs : Restart.restart D (rowsP nev t.position) (rowsD nev t.direction)
      (Restart.restartIndices (sphereEvents nev o D t).1 (sphereEvents nev o D t).2.1 (sphereEvents nev o D t).2.2.2) with er | start
    · refine ⟨.error er, fun b w hw => ?_⟩
      rw [calcSphereRng, hl]
      simp only [Bind.bind, Except.bind, dif_pos hc, hs, Except.map]
    rcases hr : rerunRng true (nev + 1) m start (Restart.restartWeight l.exit.reflFresnel l.exit.transFresnel l.out.stuck) (alone g) with er | ⟨t', w'⟩
    · refine ⟨.error er, fun b w hw => ?_⟩
      rw [calcSphereRng, hl]
      simp only [Bind.bind, Except.bind, dif_pos hc, hs]
      rw [rerun_local, hw, hr]
      rfl
    obtain ⟨e, he⟩ := ih on Weights.defaultMaxCallDepth (depth + 1) (nev + 1) t' ⟨g.stream, g.pos + rerunCount nt (nev + 1)⟩ (by
      have := hc.2.1
      simp only [Weights.defaultMaxCallDepth] at *
      omega)
    refine ⟨e.map fun r => ({ R := r.1.R + ∑ j, (l.det.refl j + l.det.incRefl j) / fin nt
                              T := r.1.T + ∑ j, l.det.trans j / fin nt
                              reflPer := fun j => r.1.reflPer j + (l.det.refl j + l.det.incRefl j) / fin nt
                              transPer := fun j => r.1.transPer j + l.det.trans j / fin nt }, rerunCount nt (nev + 1) + r.2), fun b w hw => ?_⟩
    rw [calcSphereRng, hl]
    simp only [Bind.bind, Except.bind, dif_pos hc, hs]
    rw [rerun_local, hw, hr]
    simp only [Except.map]
    rw [he b _ (by rw [gen_advance, hw])]
    rcases e with er | r
    · rfl
    simp only [Except.map, Pure.pure, Except.pure, advance_advance]

theorem run_local (nev : ℕ) (a : Args nt) (S : Sampling nt (n + 1)) (d : SphereArgs) (g : Gen) :
    ∃ e : Except PyErr (Weights.RT nt × ℕ), ∀ b (w : World), w.gen b = g →
      runSphereRng b b nev a S d w = e.map fun r => (r.1, w.advance b r.2) := by
  rcases hs : simulateRng true nev a none S (alone g) with er | ⟨t, w'⟩
  · refine ⟨.error er, fun b w hw => ?_⟩
    unfold runSphereRng
    rw [simulate_local, hw, hs]; rfl
  obtain ⟨e, he⟩ := calc_local d.thickness ⟨S.p, S.mu_scat, S.mu_scat_mie, S.mu_abs⟩ d.run_fresnel_traj d.max_stuck d.nested _ d.optics
    d.max_call_depth 0 nev ⟨t.position, t.direction, fun i j => fin (t.weight i j)⟩ ⟨g.stream, g.pos + simulateCount nev a none S⟩ (Nat.lt_succ_self _)
  refine ⟨e.map fun r => (r.1, simulateCount nev a none S + r.2), fun b w hw => ?_⟩
  unfold runSphereRng
  rw [simulate_local, hw, hs]
  simp only [Bind.bind, Except.bind, Except.map]
  rw [he b _ (by rw [gen_advance, hw])]
  rcases e with er | r
  · rfl
  simp only [Except.map, advance_advance]

/-! ## Which number is used for what -/

/-- the group of numbers with which generation `g` (0 is the first simulation) begins -/
def genRow (nev : ℕ) : ℕ → ℕ
  | 0 => 2
  | g + 1 => genRow nev g + (2 * (nev + g - 1) + (nev + g))

/-- the group of `nt` numbers from which a draw of a photon is taken: a place (two groups), then, for each generation, groups for the azimuths, the
scattering angles and the steps.  Each generation has one event more than the one before. -/
def sphRow (nev : ℕ) : SphDraw → Option ℕ
  | .radius => some 0
  | .circle => some 1
  | .azimuth g i => if i < nev + g - 1 then some (genRow nev g + i) else none
  | .angle g i => if i < nev + g - 1 then some (genRow nev g + (nev + g - 1) + i) else none
  | .step g i => if i < nev + g then some (genRow nev g + 2 * (nev + g - 1) + i) else none

/-- the numbers that photon `j` of `N` gets from a generator; 0 for those it does not use -/
def photonNumbers (g : Gen) (nev N j : ℕ) (q : SphDraw) : ℝ :=
  match sphRow nev q with
  | some r => g.stream (g.pos + r * N + j)
  | none => 0

/-- the settings `a` of `initialize` for `N` photons -/
def sphereSettings (a : Args 1) (N : ℕ) : Args N := streamArgs a N fun _ _ => 0

theorem sampleStep_mie {mu : ℝ} {mie : Option ℝ} {fr : ℝ} (h : mie = none ∨ fr = 0) (rand : ℕ → Fin nt → ℝ) (m m' : ℕ → ℝ) :
    sampleStep nt mu mie fr rand m = sampleStep nt mu mie fr rand m' := by
  unfold sampleStep
  rcases h with rfl | rfl
  · rfl
  · rcases mie with _ | x
    · rfl
    · simp only [pyRound_zero, Nat.not_lt_zero, and_false, if_false]

theorem init_numbers (b : Bool) (a : Args 1) (w : World) (hb : a.boundary = .sphere) (nev : ℕ) :
    initializeRng b (sphereSettings a nt) none w =
      (initializeTraj (streamArgs a nt (fun j => photonNumbers (w.gen b) nev nt j))).map fun p => (p, w.advance b (2 * nt)) := by
  unfold initializeRng
  have hb' : (sphereSettings a nt).boundary = .sphere := hb
  rw [hb']
  dsimp only
  by_cases hd : a.sample_diameter.isNone
  · have : (sphereSettings a nt).sample_diameter.isNone := hd
    rw [if_pos this]
    unfold initializeTraj
    have h2 : (streamArgs a nt (fun j => photonNumbers (w.gen b) nev nt j)).boundary = .sphere := hb
    have h3 : (streamArgs a nt (fun j => photonNumbers (w.gen b) nev nt j)).sample_diameter = none := Option.isNone_iff_eq_none.mp hd
    rw [h2, h3]
    rfl
  · have : ¬ (sphereSettings a nt).sample_diameter.isNone := hd
    rw [if_neg this, advance_advance, gen_advance, two_mul]
    congr 1
    congr 1
    unfold sphereSettings streamArgs
    congr 1
    · exact hb.symm
    · funext j
      simp only [photonNumbers, sphRow, Gen.vec]
      congr 1; ring
    · funext j
      simp only [photonNumbers, sphRow, Gen.vec]
      congr 1; ring

/-- the numbers of generation `k`, as tables -/
theorem gen_tables (g : Gen) (nev N k : ℕ) :
    Gen.table ⟨g.stream, g.pos + genRow nev k * N⟩ (nev + k - 1) N = (fun i (j : Fin N) => photonNumbers g nev N j (.azimuth k i)) ∧
    Gen.table ⟨g.stream, g.pos + genRow nev k * N + (nev + k - 1) * N⟩ (nev + k - 1) N = (fun i (j : Fin N) => photonNumbers g nev N j (.angle k i)) ∧
    Gen.table ⟨g.stream, g.pos + genRow nev k * N + (nev + k - 1) * N + (nev + k - 1) * N⟩ (nev + k) N =
      (fun i (j : Fin N) => photonNumbers g nev N j (.step k i)) := by
  refine ⟨?_, ?_, ?_⟩ <;> funext i j <;> simp only [Gen.table, photonNumbers, sphRow]
  · by_cases h : i < nev + k - 1
    · simp only [h, if_true]; congr 1; ring
    · simp only [h, if_false]
  · by_cases h : i < nev + k - 1
    · simp only [h, if_true]; congr 1; ring
    · simp only [h, if_false]
  · by_cases h : i < nev + k
    · simp only [h, if_true]; congr 1; ring
    · simp only [h, if_false]

theorem simulate_sphere_numbers (b : Bool) (nev : ℕ) (a : Args 1) (S : Sampling 1 (n + 1)) (w : World) (hb : a.boundary = .sphere)
    (hm : S.mu_scat_mie = none ∨ S.fine_roughness = 0) :
    simulateRng b nev (sphereSettings a nt) none (streamSampling S nt fun _ _ => 0) w =
      (simulate nev (streamArgs a nt (fun j => photonNumbers (w.gen b) nev nt j))
        (streamSampling S nt (fun j => photonNumbers (w.gen b) nev nt j))).map fun t => (t, w.advance b (genRow nev 1 * nt)) := by
  obtain ⟨t1, t2, t3⟩ := gen_tables (w.gen b) nev nt 0
  simp only [genRow, Nat.add_zero] at t1 t2 t3
  unfold simulateRng simulate
  rw [init_numbers b a w hb nev]
  generalize initializeTraj _ = x
  rcases x with e | p0
  · rfl
  simp only [Except.map, sampleAnglesRng, sampleStepRng, gen_advance, advance_advance, Bind.bind, Except.bind]
  rw [t1, show (w.gen b).pos + (2 * nt + (nev - 1) * nt) = (w.gen b).pos + 2 * nt + (nev - 1) * nt by ring, t2]
  have e1 : sampleAnglesRng1 nev (streamSampling S nt fun _ _ => 0).p (streamSampling S nt fun _ _ => 0).min_angle
      (fun i (j : Fin nt) => photonNumbers (w.gen b) nev nt j (.angle 0 i)) (fun i (j : Fin nt) => photonNumbers (w.gen b) nev nt j (.azimuth 0 i)) =
      sampleAngles1 nev (streamSampling S nt fun j => photonNumbers (w.gen b) nev nt j).p
        (streamSampling S nt fun j => photonNumbers (w.gen b) nev nt j).min_angle
        (streamSampling S nt fun j => photonNumbers (w.gen b) nev nt j).draw_theta
        (streamSampling S nt fun j => photonNumbers (w.gen b) nev nt j).rand_phi := rfl
  rw [e1]
  generalize sampleAngles1 _ _ _ _ _ = y
  rcases y with e | ang
  · rfl
  simp only [gen_advance, advance_advance]
  rw [show (w.gen b).pos + (2 * nt + (nev - 1) * nt + (nev - 1) * nt) = (w.gen b).pos + 2 * nt + (nev - 1) * nt + (nev - 1) * nt by ring, t3]
  have e2 : ∀ m, sampleStep nt (streamSampling S nt fun _ _ => 0).mu_scat (streamSampling S nt fun _ _ => 0).mu_scat_mie
      (streamSampling S nt fun _ _ => 0).fine_roughness (fun i (j : Fin nt) => photonNumbers (w.gen b) nev nt j (.step 0 i)) m =
      sampleStep nt (streamSampling S nt fun j => photonNumbers (w.gen b) nev nt j).mu_scat
        (streamSampling S nt fun j => photonNumbers (w.gen b) nev nt j).mu_scat_mie
        (streamSampling S nt fun j => photonNumbers (w.gen b) nev nt j).fine_roughness
        (streamSampling S nt fun j => photonNumbers (w.gen b) nev nt j).rand_step
        (streamSampling S nt fun j => photonNumbers (w.gen b) nev nt j).rand_mie := fun m => sampleStep_mie hm _ _ _
  rw [e2]
  generalize sampleStep _ _ _ _ _ _ = z
  rcases z with e | st
  · rfl
  have e3 : (if (streamSampling S nt fun _ _ => 0).mu_scat_mie.isSome then
      (w.advance b (2 * nt + (nev - 1) * nt + (nev - 1) * nt + nev * nt)).advance b (pyRound (nt * (streamSampling S nt fun _ _ => 0).fine_roughness)).toNat
      else w.advance b (2 * nt + (nev - 1) * nt + (nev - 1) * nt + nev * nt)) = w.advance b (genRow nev 1 * nt) := by
    have e4 : w.advance b (2 * nt + (nev - 1) * nt + (nev - 1) * nt + nev * nt) = w.advance b (genRow nev 1 * nt) := by
      congr 1; simp only [genRow, Nat.add_zero]; ring
    rcases hm with hm | hm
    · have : (streamSampling S nt fun _ _ => 0).mu_scat_mie.isSome = false := by
        show S.mu_scat_mie.isSome = false
        rw [hm]; rfl
      rw [this, e4]; rfl
    · have : (streamSampling S nt fun _ _ => 0).fine_roughness = 0 := hm
      rw [this, pyRound_zero, advance_zero, ite_self, e4]
  simp only [advance_advance, Nat.add_assoc] at e3 ⊢
  rw [e3]
  rfl

theorem rerun_numbers (b : Bool) (nev k : ℕ) (S : Sampling 1 (n + 1)) (w : World) (g : Gen) (hg : w.gen b = ⟨g.stream, g.pos + genRow nev k * nt⟩)
    (m : Medium (n + 1)) (hp : m.p = S.p) (start : Fin nt → XV × XV) (W : Fin nt → XF) :
    rerunRng b (nev + k) m start W w =
      (rerun (nev + k) m (streamDraws S nt (fun j => photonNumbers g nev nt j) k) start W).map fun t => (t, w.advance b (rerunCount nt (nev + k))) := by
  obtain ⟨t1, t2, t3⟩ := gen_tables g nev nt k
  unfold rerunRng rerun
  simp only [sampleAnglesRng, sampleStepRng, gen_advance, advance_advance, Bind.bind, Except.bind, hg]
  rw [t1, t2]
  have e1 : sampleAnglesRng1 (nev + k) m.p (1 / 100)
      (fun i (j : Fin nt) => photonNumbers g nev nt j (.angle k i)) (fun i (j : Fin nt) => photonNumbers g nev nt j (.azimuth k i)) =
      sampleAngles1 (nev + k) m.p (1 / 100) (streamDraws S nt (fun j => photonNumbers g nev nt j) k).draw_theta
        (streamDraws S nt (fun j => photonNumbers g nev nt j) k).rand_phi := by
    unfold sampleAnglesRng1 streamDraws
    rw [hp]
  rw [e1]
  generalize sampleAngles1 _ _ _ _ _ = y
  rcases y with e | ang
  · rfl
  simp only [Except.map, gen_advance, advance_advance, hg]
  rw [← add_assoc, t3, pyRound_zero]
  simp only [Nat.add_zero, ite_self]
  rw [sampleStep_mie (Or.inr rfl) _ _ (streamDraws S nt (fun j => photonNumbers g nev nt j) k).rand_mie]
  have e2 : (fun i (j : Fin nt) => photonNumbers g nev nt j (.step k i)) = (streamDraws S nt (fun j => photonNumbers g nev nt j) k).rand_step := rfl
  rw [e2]
  generalize sampleStep _ _ _ _ _ _ = z
  rcases z with e | st
  · rfl
  rfl

theorem calc_numbers (D : ℝ) (m : Medium (n + 1)) (run : Bool) (max_stuck : ℝ) (on : Weights.Optics) (S : Sampling 1 (n + 1)) (hp : m.p = S.p)
    (b : Bool) (nev : ℕ) (g : Gen) :
    ∀ (M : ℕ) (o : Weights.Optics) (maxDepth depth : ℕ) (t : SphTrajs nt) (w : World), w.gen b = ⟨g.stream, g.pos + genRow nev (depth + 1) * nt⟩ →
      2 * (Weights.defaultMaxCallDepth - depth) + min 1 (maxDepth - depth) < M →
      (calcSphereRng b D m run max_stuck on o maxDepth depth (nev + depth) t w).map Prod.fst =
        calcSphere D m (streamDraws S nt fun j => photonNumbers g nev nt j) run max_stuck on o maxDepth depth (nev + depth) t := by
  intro M
  induction M with
  | zero => intro _ _ _ _ _ _ h; omega
  | succ M ih =>
    intro o maxDepth depth t w hw hM
    rw [calcSphereRng, calcSphere]
    rcases hl : Weights.level o (sphereGeometry (nev + depth) o D t) none (decide (0 < depth)) (fun (e : Fin (nev + depth)) j => t.weight e j) with er | l
    · rfl
    by_cases hc : run = true ∧ depth < maxDepth ∧ (fin max_stuck : XF) < l.totalStuck
    swap
    · simp only [Bind.bind, Except.bind, dif_neg hc, Except.map, Pure.pure, Except.pure]
    simp only [Bind.bind, Except.bind, dif_pos hc]
    generalize Restart.restart D _ _ _ = s
    rcases s with er | start
    · rfl
    dsimp only
    rw [show nev + depth + 1 = nev + (depth + 1) by ring, rerun_numbers b nev (depth + 1) S w g hw m hp]
    generalize rerun _ _ _ _ _ = r
    rcases r with er | t'
    · rfl
    simp only [Except.map]
    have h := ih on Weights.defaultMaxCallDepth (depth + 1) t' (w.advance b (rerunCount nt (nev + (depth + 1)))) (by
      rw [gen_advance, hw]
      congr 1
      simp only [genRow, rerunCount]
      ring) (by
      have := hc.2.1
      simp only [Weights.defaultMaxCallDepth] at *
      omega)
    rw [← h]
    generalize calcSphereRng _ _ _ _ _ _ _ _ _ _ _ _ = c
    rcases c with er | ⟨r, v⟩
    · rfl
    rfl

theorem sphere_numbers (b : Bool) (nev : ℕ) (a : Args 1) (S : Sampling 1 (n + 1)) (d : SphereArgs) (w : World) (hb : a.boundary = .sphere)
    (hm : S.mu_scat_mie = none ∨ S.fine_roughness = 0) :
    (runSphereRng b b nev (sphereSettings a nt) (streamSampling S nt fun _ _ => 0) d w).map Prod.fst =
      streamRun nev a S d nt fun j => photonNumbers (w.gen b) nev nt j := by
  unfold runSphereRng streamRun runSphere
  rw [simulate_sphere_numbers b nev a S w hb hm]
  generalize simulate _ _ _ = x
  rcases x with e | t
  · rfl
  simp only [Except.map, Bind.bind, Except.bind]
  exact calc_numbers d.thickness ⟨S.p, S.mu_scat, S.mu_scat_mie, S.mu_abs⟩ d.run_fresnel_traj d.max_stuck d.nested S rfl b nev (w.gen b) _ d.optics
    d.max_call_depth 0 _ (w.advance b (genRow nev 1 * nt)) (gen_advance _ _ _) (Nat.lt_succ_self _)

/-! ## Numbers that are drawn for nothing -/

theorem cumsum_congr {α : Type} [Add α] {s s' : ℕ → α} (i : ℕ) (h : ∀ k ≤ i, s k = s' k) : cumsum s i = cumsum s' i := by
  induction i with
  | zero => exact h 0 le_rfl
  | succ i ih =>
    show cumsum s i + s (i + 1) = cumsum s' i + s' (i + 1)
    rw [ih fun k hk => h k (by omega), h (i + 1) le_rfl]

theorem scatter_congr (N : ℕ) (kn : ℕ → Fin nt → V3) {st ct sp cp st' ct' sp' cp' : ℕ → Fin nt → ℝ}
    (h : ∀ i, i < N - 1 → ∀ j, st i j = st' i j ∧ ct i j = ct' i j ∧ sp i j = sp' i j ∧ cp i j = cp' i j) :
    scatter N kn st ct sp cp = scatter N kn st' ct' sp' cp' := by
  have key : ∀ (l : List ℕ) (k : ℕ → Fin nt → V3), (∀ n ∈ l, n - 1 < N - 1) →
      l.foldl (scatterBody st ct sp cp) k = l.foldl (scatterBody st' ct' sp' cp') k := by
    intro l
    induction l with
    | nil => intro k _; rfl
    | cons x l ih =>
      intro k hl
      have e : scatterBody st ct sp cp k x = scatterBody st' ct' sp' cp' k x := by
        unfold scatterBody
        congr 1
        funext j
        obtain ⟨h1, h2, h3, h4⟩ := h (x - 1) (hl x (by simp)) j
        rw [h1, h2, h3, h4]
      simp only [List.foldl_cons]
      rw [e]
      exact ih _ fun n hn => hl n (by simp [hn])
  refine key _ kn fun n hn => ?_
  simp only [List.mem_range'_1] at hn
  omega

theorem move_congr (N : ℕ) (p : ℕ → Fin nt → V3) {s s' : ℕ → Fin nt → ℝ} (k : ℕ → Fin nt → V3) (h : ∀ i < N, ∀ j, s i j = s' i j) :
    ∀ i ≤ N, ∀ j, move p s k i j = move p s' k i j := by
  intro i hi j
  refine cumsum_congr i fun e he => ?_
  cases e with
  | zero => rfl
  | succ e =>
    show V3.smul (s e j) _ = V3.smul (s' e j) _
    rw [h e (by omega) j]

/-- the same trajectories as far as `nev` events go -/
def SameTrajs (nev : ℕ) (t t' : SphTrajs nt) : Prop :=
  (∀ i ≤ nev, ∀ j, t.position i j = t'.position i j) ∧ t.direction = t'.direction ∧ ∀ i < nev, ∀ j, t.weight i j = t'.weight i j

/-- the same draws as far as `N` events need them -/
def SameDraws {num : ℕ} (N : ℕ) (g g' : Draws nt num) : Prop :=
  (∀ i < N - 1, ∀ j, g.draw_theta i j = g'.draw_theta i j ∧ g.rand_phi i j = g'.rand_phi i j) ∧ ∀ i < N, ∀ j, g.rand_step i j = g'.rand_step i j

theorem step_congr {mu : ℝ} {mie : Option ℝ} {fr : ℝ} (hm : mie = none ∨ fr = 0) {N : ℕ} {r r' : ℕ → Fin nt → ℝ} (m m' : ℕ → ℝ)
    (h : ∀ i < N, ∀ j, r i j = r' i j) :
    (∃ e, sampleStep nt mu mie fr r m = .error e ∧ sampleStep nt mu mie fr r' m' = .error e) ∨
      ∃ s s', sampleStep nt mu mie fr r m = .ok s ∧ sampleStep nt mu mie fr r' m' = .ok s' ∧ ∀ i < N, ∀ j, s i j = s' i j := by
  rw [sampleStep_mie hm r' m' m]
  unfold sampleStep
  by_cases hf : 1 < fr ∨ fr < 0
  · exact Or.inl ⟨_, by rw [if_pos hf], by rw [if_pos hf]⟩
  · rw [if_neg hf, if_neg hf]
    rcases mie with _ | x
    · exact Or.inr ⟨_, _, rfl, rfl, fun i hi j => by rw [h i hi j]⟩
    · exact Or.inr ⟨_, _, rfl, rfl, fun i hi j => by dsimp only; rw [h i hi j]⟩

theorem angles_congr {num : ℕ} {N : ℕ} {p : Fin num → ℝ} {m : ℝ} {d d' : ℕ → Fin nt → Fin num} {r r' : ℕ → Fin nt → ℝ}
    (h : ∀ i < N - 1, ∀ j, d i j = d' i j ∧ r i j = r' i j) :
    (∃ e, sampleAngles1 N p m d r = .error e ∧ sampleAngles1 N p m d' r' = .error e) ∨
      ∃ s s', sampleAngles1 N p m d r = .ok s ∧ sampleAngles1 N p m d' r' = .ok s' ∧ ∀ k : ℕ → Fin nt → V3,
        scatter N k s.sintheta s.costheta s.sinphi s.cosphi = scatter N k s'.sintheta s'.costheta s'.sinphi s'.cosphi := by
  unfold sampleAngles1
  dsimp only
  by_cases hc : N - 1 = 0 ∨ choiceOk (probTheta p m)
  · rw [if_pos hc, if_pos hc]
    refine Or.inr ⟨_, _, rfl, rfl, fun k => scatter_congr N k fun i hi j => ?_⟩
    simp only [mkAngles, (h i hi j).1, (h i hi j).2, and_self]
  · rw [if_neg hc, if_neg hc]
    exact Or.inl ⟨_, rfl, rfl⟩

theorem rerun_congr {num : ℕ} (N : ℕ) (m : Medium num) {g g' : Draws nt num} (hg : SameDraws N g g') (start : Fin nt → XV × XV) (W : Fin nt → XF) :
    (∃ e, rerun N m g start W = .error e ∧ rerun N m g' start W = .error e) ∨
      ∃ t t', rerun N m g start W = .ok t ∧ rerun N m g' start W = .ok t' ∧ SameTrajs N t t' := by
  unfold rerun
  rcases angles_congr (p := m.p) (m := 1 / 100) hg.1 with ⟨e, h1, h2⟩ | ⟨s, s', h1, h2, hk⟩
  · rw [h1, h2]; exact Or.inl ⟨e, rfl, rfl⟩
  rcases step_congr (mu := m.mu_scat) (mie := m.mu_scat_mie) (fr := 0) (Or.inr rfl) g.rand_mie g'.rand_mie hg.2 with ⟨e, h3, h4⟩ | ⟨z, z', h3, h4, hz⟩
  · rw [h1, h2, h3, h4]; exact Or.inl ⟨e, rfl, rfl⟩
  rw [h1, h2, h3, h4]
  refine Or.inr ⟨_, _, rfl, rfl, ?_, ?_, ?_⟩
  · intro i hi j
    dsimp only
    rw [hk]
    exact move_congr N _ _ (fun i hi j => by rw [hz i hi j]) i hi j
  · exact hk _
  · intro i hi j
    dsimp only
    rw [cumsum_congr (s := fun n => val (z n j)) (s' := fun n => val (z' n j)) i fun k hk => by rw [hz k (by omega) j]]

theorem geometry_congr {nev : ℕ} {t t' : SphTrajs nt} (h : SameTrajs nev t t') (o : Weights.Optics) (D : ℝ) :
    rowsP nev t.position = rowsP nev t'.position ∧ rowsD nev t.direction = rowsD nev t'.direction ∧
      sphereEvents nev o D t = sphereEvents nev o D t' ∧ sphereGeometry nev o D t = sphereGeometry nev o D t' ∧
      (fun (e : Fin nev) j => t.weight e j) = fun (e : Fin nev) j => t'.weight e j := by
  obtain ⟨h1, h2, h3⟩ := h
  have p : rowsP nev t.position = rowsP nev t'.position := by
    funext e j
    exact h1 e (by omega) j
  have k : rowsD nev t.direction = rowsD nev t'.direction := by rw [h2]
  have ev : sphereEvents nev o D t = sphereEvents nev o D t' := by
    unfold sphereEvents
    rw [p, k]
  refine ⟨p, k, ev, ?_, ?_⟩
  · have en : entryAngle D t = entryAngle D t' := by
      funext j
      unfold entryAngle
      rw [h1 0 (Nat.zero_le _), h2]
    have ex : ∀ i, exitAngle nev D t.position i = exitAngle nev D t'.position i := by
      intro i
      funext j
      unfold exitAngle
      rw [p]
    unfold sphereGeometry
    rw [ev, en]
    simp only [ex]
  · funext e j
    exact h3 e e.isLt j

theorem calcSphere_congr {num : ℕ} (D : ℝ) (m : Medium num) (run : Bool) (max_stuck : ℝ) (on : Weights.Optics) {g g' : ℕ → Draws nt num} (nev : ℕ)
    (hg : ∀ k ≤ Weights.defaultMaxCallDepth, SameDraws (nev + k) (g k) (g' k)) :
    ∀ (M : ℕ) (o : Weights.Optics) (maxDepth depth : ℕ) (t t' : SphTrajs nt), SameTrajs (nev + depth) t t' →
      (depth = 0 ∨ maxDepth ≤ Weights.defaultMaxCallDepth) → 2 * (Weights.defaultMaxCallDepth - depth) + min 1 (maxDepth - depth) < M →
      calcSphere D m g run max_stuck on o maxDepth depth (nev + depth) t = calcSphere D m g' run max_stuck on o maxDepth depth (nev + depth) t' := by
  intro M
  induction M with
  | zero => intro _ _ _ _ _ _ _ h; omega
  | succ M ih =>
    intro o maxDepth depth t t' ht hd hM
    obtain ⟨q1, q2, q3, q4, q5⟩ := geometry_congr ht o D
    rw [calcSphere, calcSphere, q1, q2, q3, q4, q5]
    generalize Weights.level _ _ _ _ _ = l
    rcases l with er | l
    · rfl
    by_cases hc : run = true ∧ depth < maxDepth ∧ (fin max_stuck : XF) < l.totalStuck
    swap
    · simp only [Bind.bind, Except.bind, dif_neg hc]
    simp only [Bind.bind, Except.bind, dif_pos hc]
    generalize Restart.restart D _ _ _ = s
    rcases s with er | start
    · rfl
    dsimp only
    have hdep : depth + 1 ≤ Weights.defaultMaxCallDepth := by
      have := hc.2.1
      simp only [Weights.defaultMaxCallDepth] at *
      omega
    have hs := hg (depth + 1) hdep
    rw [← Nat.add_assoc] at hs
    rcases rerun_congr (nev + depth + 1) m hs start (Restart.restartWeight l.exit.reflFresnel l.exit.transFresnel l.out.stuck) with
      ⟨e, h1, h2⟩ | ⟨u, u', h1, h2, hu⟩
    · rw [h1, h2]
    rw [h1, h2]
    dsimp only
    have := ih on Weights.defaultMaxCallDepth (depth + 1) u u' hu (Or.inr le_rfl) (by
      have := hc.2.1
      simp only [Weights.defaultMaxCallDepth] at *
      omega)
    rw [← Nat.add_assoc] at this
    rw [this]

/-- the group of numbers of a draw, in runs that end after the deepest nested call -/
def deepRow (nev : ℕ) (q : SphDraw) : Option ℕ :=
  match q with
  | .radius => sphRow nev q
  | .circle => sphRow nev q
  | .angle g _ => if g ≤ Weights.defaultMaxCallDepth then sphRow nev q else none
  | .azimuth g _ => if g ≤ Weights.defaultMaxCallDepth then sphRow nev q else none
  | .step g _ => if g ≤ Weights.defaultMaxCallDepth then sphRow nev q else none

theorem stream_congr (nev N : ℕ) (a : Args 1) (S : Sampling 1 (n + 1)) (d : SphereArgs) (hm : S.mu_scat_mie = none ∨ S.fine_roughness = 0)
    {x y : ℕ → SphDraw → ℝ} (h : ∀ j < N, ∀ q, (deepRow nev q).isSome → x j q = y j q) : streamRun nev a S d N x = streamRun nev a S d N y := by
  have draws : ∀ k ≤ Weights.defaultMaxCallDepth, (∀ i < nev + k - 1, ∀ j : Fin N, x j (.angle k i) = y j (.angle k i) ∧
      x j (.azimuth k i) = y j (.azimuth k i)) ∧ ∀ i < nev + k, ∀ j : Fin N, x j (.step k i) = y j (.step k i) := by
    intro k hk
    refine ⟨fun i hi j => ⟨h j j.isLt _ ?_, h j j.isLt _ ?_⟩, fun i hi j => h j j.isLt _ ?_⟩ <;> simp [deepRow, sphRow, hk, hi]
  have ea : streamArgs a N x = streamArgs a N y := by
    unfold streamArgs
    congr 1
    · funext j; exact h j j.isLt _ rfl
    · funext j; exact h j j.isLt _ rfl
  unfold streamRun runSphere simulate
  rw [ea]
  generalize initializeTraj (streamArgs a N y) = p
  rcases p with e | p0
  · rfl
  simp only [Bind.bind, Except.bind]
  have d0 := draws 0 (Nat.zero_le _)
  rcases angles_congr (N := nev) (p := S.p) (m := S.min_angle) (d := (streamSampling S N x).draw_theta) (d' := (streamSampling S N y).draw_theta)
    (r := (streamSampling S N x).rand_phi) (r' := (streamSampling S N y).rand_phi) (fun i hi j => by
      obtain ⟨h1, h2⟩ := d0.1 i hi j
      exact ⟨congrArg (choiceIndex _) h1, h2⟩) with ⟨e, h1, h2⟩ | ⟨s, s', h1, h2, hk⟩
  · have h1' : sampleAngles1 nev (streamSampling S N x).p (streamSampling S N x).min_angle (streamSampling S N x).draw_theta
      (streamSampling S N x).rand_phi = .error e := h1
    have h2' : sampleAngles1 nev (streamSampling S N y).p (streamSampling S N y).min_angle (streamSampling S N y).draw_theta
      (streamSampling S N y).rand_phi = .error e := h2
    rw [h1', h2']
  have h1' : sampleAngles1 nev (streamSampling S N x).p (streamSampling S N x).min_angle (streamSampling S N x).draw_theta
    (streamSampling S N x).rand_phi = .ok s := h1
  have h2' : sampleAngles1 nev (streamSampling S N y).p (streamSampling S N y).min_angle (streamSampling S N y).draw_theta
    (streamSampling S N y).rand_phi = .ok s' := h2
  rw [h1', h2']
  rcases step_congr (mu := S.mu_scat) (N := nev) hm (streamSampling S N x).rand_mie (streamSampling S N y).rand_mie
    (r := (streamSampling S N x).rand_step) (r' := (streamSampling S N y).rand_step) (fun i hi j => d0.2 i hi j) with
    ⟨e, h3, h4⟩ | ⟨z, z', h3, h4, hz⟩
  · have h3' : sampleStep N (streamSampling S N x).mu_scat (streamSampling S N x).mu_scat_mie (streamSampling S N x).fine_roughness
      (streamSampling S N x).rand_step (streamSampling S N x).rand_mie = .error e := h3
    have h4' : sampleStep N (streamSampling S N y).mu_scat (streamSampling S N y).mu_scat_mie (streamSampling S N y).fine_roughness
      (streamSampling S N y).rand_step (streamSampling S N y).rand_mie = .error e := h4
    rw [h3', h4']
  have h3' : sampleStep N (streamSampling S N x).mu_scat (streamSampling S N x).mu_scat_mie (streamSampling S N x).fine_roughness
    (streamSampling S N x).rand_step (streamSampling S N x).rand_mie = .ok z := h3
  have h4' : sampleStep N (streamSampling S N y).mu_scat (streamSampling S N y).mu_scat_mie (streamSampling S N y).fine_roughness
    (streamSampling S N y).rand_step (streamSampling S N y).rand_mie = .ok z' := h4
  rw [h3', h4']
  dsimp only [Pure.pure, Except.pure]
  refine calcSphere_congr d.thickness _ d.run_fresnel_traj d.max_stuck d.nested nev ?_ _ d.optics d.max_call_depth 0 _ _ ?_ (Or.inl rfl) (Nat.lt_succ_self _)
  · intro k hk
    obtain ⟨k1, k2⟩ := draws k hk
    refine ⟨fun i hi j => ?_, k2⟩
    obtain ⟨k3, k4⟩ := k1 i hi j
    exact ⟨congrArg (choiceIndex _) k3, k4⟩
  · refine ⟨?_, hk _, ?_⟩
    · intro i hi j
      dsimp only
      rw [hk]
      exact move_congr nev _ _ (fun i hi j => by rw [hz i hi j]) i (by omega) j
    · intro i hi j
      dsimp only
      congr 1
      unfold absorb
      rw [cumsum_congr (s := fun n => val (z n j)) (s' := fun n => val (z' n j)) i fun k hk => by rw [hz k (by omega) j]]
      rfl

/-! ## Different draws take different numbers -/

theorem genRow_mono (nev : ℕ) : Monotone (genRow nev) := monotone_nat_of_le_succ fun k => by simp [genRow]

/-- the groups of generation `g` -/
theorem sphRow_block {nev : ℕ} {q : SphDraw} {r : ℕ} (h : sphRow nev q = some r) :
    match q with
    | .radius => r = 0
    | .circle => r = 1
    | .azimuth g i => genRow nev g ≤ r ∧ r < genRow nev (g + 1) ∧ r = genRow nev g + i ∧ i < nev + g - 1
    | .angle g i => genRow nev g ≤ r ∧ r < genRow nev (g + 1) ∧ r = genRow nev g + (nev + g - 1) + i ∧ i < nev + g - 1
    | .step g i => genRow nev g ≤ r ∧ r < genRow nev (g + 1) ∧ r = genRow nev g + 2 * (nev + g - 1) + i ∧ i < nev + g := by
  cases q <;> simp only [sphRow] at h <;> (try split_ifs at h) <;> cases h <;> simp only [genRow] <;>
    (refine ⟨?_, ?_, ?_, ?_⟩ <;> first | trivial | omega)

theorem block_unique {nev g g' r : ℕ} (h : genRow nev g ≤ r ∧ r < genRow nev (g + 1)) (h' : genRow nev g' ≤ r ∧ r < genRow nev (g' + 1)) : g = g' := by
  rcases lt_trichotomy g g' with hl | hl | hl
  · have := genRow_mono nev (show g + 1 ≤ g' from hl); omega
  · exact hl
  · have := genRow_mono nev (show g' + 1 ≤ g from hl); omega

theorem genRow_ge (nev g : ℕ) : 2 ≤ genRow nev g := genRow_mono nev (Nat.zero_le g)

theorem sphRow_inj {nev : ℕ} {q q' : SphDraw} {r : ℕ} (h : sphRow nev q = some r) (h' : sphRow nev q' = some r) : q = q' := by
  have b := sphRow_block h
  have b' := sphRow_block h'
  cases q <;> cases q' <;> dsimp only at b b' <;> first | rfl | omega | skip
  all_goals first
    | (have e := block_unique ⟨b.1, b.2.1⟩ ⟨b'.1, b'.2.1⟩; subst e; congr 1; omega)
    | (exfalso; have := genRow_ge nev; rename_i g i; have := this g; omega)

theorem deepRow_eq {nev : ℕ} {q : SphDraw} {r : ℕ} (h : deepRow nev q = some r) :
    sphRow nev q = some r ∧ r < genRow nev (Weights.defaultMaxCallDepth + 1) := by
  have two : 2 ≤ genRow nev (Weights.defaultMaxCallDepth + 1) := genRow_ge _ _
  cases q with
  | radius => exact ⟨h, by have := sphRow_block (nev := nev) (q := .radius) h; dsimp only at this; omega⟩
  | circle => exact ⟨h, by have := sphRow_block (nev := nev) (q := .circle) h; dsimp only at this; omega⟩
  | angle g i =>
    simp only [deepRow] at h
    split_ifs at h with hg
    have := sphRow_block h
    dsimp only at this
    have := genRow_mono nev (show g + 1 ≤ Weights.defaultMaxCallDepth + 1 by omega)
    exact ⟨h, by omega⟩
  | azimuth g i =>
    simp only [deepRow] at h
    split_ifs at h with hg
    have := sphRow_block h
    dsimp only at this
    have := genRow_mono nev (show g + 1 ≤ Weights.defaultMaxCallDepth + 1 by omega)
    exact ⟨h, by omega⟩
  | step g i =>
    simp only [deepRow] at h
    split_ifs at h with hg
    have := sphRow_block h
    dsimp only at this
    have := genRow_mono nev (show g + 1 ≤ Weights.defaultMaxCallDepth + 1 by omega)
    exact ⟨h, by omega⟩

/-- some numbering of the draws of a photon -/
def sphCode : SphDraw → ℕ := (exists_injective_nat SphDraw).choose

theorem sphCode_inj : Function.Injective sphCode := (exists_injective_nat SphDraw).choose_spec

/-- the position in the stream of a draw of a photon; draws that are not used get positions behind all the others -/
def sphPlace (p N nev : ℕ) (x : ℕ × SphDraw) : ℕ :=
  match deepRow nev x.2 with
  | some r => if x.1 < N then p + r * N + x.1 else p + genRow nev (Weights.defaultMaxCallDepth + 1) * N + Nat.pair x.1 (sphCode x.2)
  | none => p + genRow nev (Weights.defaultMaxCallDepth + 1) * N + Nat.pair x.1 (sphCode x.2)

theorem sphPlace_cases (p N nev : ℕ) (x : ℕ × SphDraw) :
    (∃ r, deepRow nev x.2 = some r ∧ x.1 < N ∧ r < genRow nev (Weights.defaultMaxCallDepth + 1) ∧ sphPlace p N nev x = p + r * N + x.1) ∨
      sphPlace p N nev x = p + genRow nev (Weights.defaultMaxCallDepth + 1) * N + Nat.pair x.1 (sphCode x.2) := by
  unfold sphPlace
  cases h : deepRow nev x.2 with
  | none => exact Or.inr rfl
  | some r =>
    by_cases hj : x.1 < N
    · exact Or.inl ⟨r, rfl, hj, (deepRow_eq h).2, by simp [hj]⟩
    · exact Or.inr (by simp [hj])

theorem sphPlace_inj (p N nev : ℕ) : Function.Injective (sphPlace p N nev) := by
  generalize hR : genRow nev (Weights.defaultMaxCallDepth + 1) = R
  have key : ∀ r j, r < R → j < N → p + r * N + j < p + R * N := by
    intro r j hr hj
    have : (r + 1) * N ≤ R * N := Nat.mul_le_mul_right _ hr
    rw [add_mul, one_mul] at this
    omega
  intro x y h
  have cx := sphPlace_cases p N nev x
  have cy := sphPlace_cases p N nev y
  rw [hR] at cx cy
  rcases cx with ⟨r, hr, hj, hlt, e⟩ | e <;> rcases cy with ⟨r', hr', hj', hlt', e'⟩ | e' <;> rw [e, e'] at h
  · have h' : r * N + x.1 = r' * N + y.1 := by omega
    have hN : 0 < N := by omega
    have h1 : x.1 = y.1 := by
      have := congrArg (· % N) h'
      simpa [Nat.add_mod, Nat.mod_eq_of_lt hj, Nat.mod_eq_of_lt hj'] using this
    have h2 : r = r' := by
      rw [h1] at h'
      exact Nat.eq_of_mul_eq_mul_right hN (by omega)
    subst h2
    exact Prod.ext h1 (sphRow_inj (deepRow_eq hr).1 (deepRow_eq hr').1)
  · have := key r x.1 hlt hj
    omega
  · have := key r' y.1 hlt' hj'
    omega
  · have h' : Nat.pair x.1 (sphCode x.2) = Nat.pair y.1 (sphCode y.2) := by omega
    have := Nat.pair_eq_pair.mp h'
    exact Prod.ext this.1 (sphCode_inj this.2)

/-! ## C158 -/

/-- C158: reproducibility.  A sphere run whose functions all get the same generator (or none of them any) depends on the state of this generator alone,
and draws from no other: it leaves the other generator as it was, and this one at a later position of the same stream. -/
theorem C158_own_generator (b : Bool) (nev : ℕ) (a : Args nt) (S : Sampling nt (n + 1)) (d : SphereArgs) (w : World) :
    (∀ b' w', World.gen w' b' = w.gen b → (runSphereRng b' b' nev a S d w').map Prod.fst = (runSphereRng b b nev a S d w).map Prod.fst) ∧
    ∀ rt w1, runSphereRng b b nev a S d w = .ok (rt, w1) →
      w1.gen (!b) = w.gen (!b) ∧ (w1.gen b).stream = (w.gen b).stream ∧ (w.gen b).pos ≤ (w1.gen b).pos := by
  obtain ⟨e, he⟩ := run_local nev a S d (w.gen b)
  constructor
  · intro b' w' hw
    rw [he b' w' hw, he b w rfl]
    rcases e with er | r
    · rfl
    rfl
  · intro rt w1 h
    rw [he b w rfl] at h
    rcases e with er | r
    · cases h
    injection h with h
    have : w1 = w.advance b r.2 := (congrArg Prod.snd h).symm
    subst this
    refine ⟨?_, ?_, ?_⟩
    · cases b <;> rfl
    · rw [gen_advance]
    · rw [gen_advance]; exact Nat.le_add_right _ _

/-- C158: which number is used for what.  The run is the run of C145 (`streamRun`) in which photon `j` has the numbers `photonNumbers`: those at the
places `C158_places` speaks of. -/
theorem C158_sphere_numbers (b : Bool) (nev : ℕ) (a : Args 1) (S : Sampling 1 (n + 1)) (d : SphereArgs) (w : World) (hb : a.boundary = .sphere)
    (hm : S.mu_scat_mie = none ∨ S.fine_roughness = 0) :
    (runSphereRng b b nev (sphereSettings a nt) (streamSampling S nt fun _ _ => 0) d w).map Prod.fst =
      streamRun nev a S d nt fun j => photonNumbers (w.gen b) nev nt j :=
  sphere_numbers b nev a S d w hb hm

/-- C158: no number is used twice, neither by two photons nor by two events, nor by the first simulation and a re-run -/
theorem C158_places (p N nev : ℕ) (j j' : Fin N) (q q' : SphDraw) (r r' : ℕ) (hr : sphRow nev q = some r) (hr' : sphRow nev q' = some r')
    (h : p + r * N + j = p + r' * N + j') : j = j' ∧ q = q' := by
  have h' : r * N + j = r' * N + j' := by omega
  have hN : 0 < N := lt_of_le_of_lt (Nat.zero_le _) j.isLt
  have h1 : (j : ℕ) = j' := by
    have := congrArg (· % N) h'
    simpa [Nat.add_mod, Nat.mod_eq_of_lt j.isLt, Nat.mod_eq_of_lt j'.isLt] using this
  have h2 : r = r' := by
    rw [h1] at h'
    exact Nat.eq_of_mul_eq_mul_right hN (by omega)
  subst h2
  exact ⟨Fin.ext h1, sphRow_inj hr hr'⟩

/-- C158: the statistics of sphere runs that take all their numbers, those of the re-runs of reflected light included, from one generator whose numbers
are independent and uniform on [0, 1).  The expected reflectance `ρ` and transmittance `τ` are the same for all numbers of photons, all starting
positions and all generators; they are fractions with sum at most 1, exactly 1 without absorption; and a run of `N + 1` photons is off by `ε` or more
with probability at most `2 exp(-2 (N + 1) ε²)`. -/
theorem C158_seeded_error {a : Args 1} {S : Sampling 1 (n + 1)} {d : SphereArgs} {draws : ℕ → Draws 1 (n + 1)} (H : SphereDomain a S d draws)
    (hdet : d.detection_angle = Real.pi / 2)
    (hfine : d.fine_roughness = 0 ∨ ∀ p m, d.n_particle = some p → d.n_matrix = some m → d.n_sample ≤ max p m)
    (hmie : S.mu_scat_mie = none ∨ S.fine_roughness = 0) (hrun : d.run_fresnel_traj = false ∨ d.max_stuck < 0) (nev : ℕ) :
    ∃ ρ τ : ℝ, (0 ≤ ρ ∧ 0 ≤ τ ∧ ρ + τ ≤ 1 ∧ (0 < nev → S.mu_abs = 0 → ρ + τ = 1)) ∧
      ∀ {Ω : Type} [MeasurableSpace Ω] (P : Measure Ω) [IsProbabilityMeasure P] (u : ℕ → Ω → ℝ), UniformDraws P u →
        ∀ (N : ℕ) (b : Bool) (pos : ℕ) (w : Ω → World), (∀ ω, (w ω).gen b = ⟨fun i => u i ω, pos⟩) →
        ∃ r t : Ω → ℝ,
          (∀ᵐ ω ∂P, ∃ rt w', runSphereRng b b nev (sphereSettings a (N + 1)) (streamSampling S (N + 1) fun _ _ => 0) d (w ω) = .ok (rt, w') ∧
            rt.R = fin (r ω) ∧ rt.T = fin (t ω)) ∧
          (Integrable r P ∧ Integrable t P ∧ ∫ ω, r ω ∂P = ρ ∧ ∫ ω, t ω ∂P = τ) ∧
          ∀ ε, 0 ≤ ε → P.real {ω | ε ≤ |r ω - ρ|} ≤ 2 * Real.exp (-2 * ((N + 1 : ℕ) : ℝ) * ε ^ 2) ∧
            P.real {ω | ε ≤ |t ω - τ|} ≤ 2 * Real.exp (-2 * ((N + 1 : ℕ) : ℝ) * ε ^ 2) := by
  obtain ⟨mR, mT⟩ := one_meas H nev
  have hfr := fun y => one_fraction H nev y
  have law : ∀ {F : (SphDraw → ℝ) → ℝ}, Measurable F → ∀ {Ω : Type} [MeasurableSpace Ω] (P : Measure Ω) [IsProbabilityMeasure P]
      (U : ℕ × SphDraw → Ω → ℝ), UniformDraws P U → ∀ j, ∫ ω, F (group U j ω) ∂P = ∫ x, F x ∂(Measure.infinitePi fun _ : SphDraw => unif) := by
    intro F hF Ω _ P _ U hU j
    rw [← group_law hU j, integral_map (group_meas hU j).aemeasurable hF.aestronglyMeasurable]
  refine ⟨∫ x, oneR nev a S d x ∂(Measure.infinitePi fun _ : SphDraw => unif), ∫ x, oneT nev a S d x ∂(Measure.infinitePi fun _ : SphDraw => unif),
    ?_, ?_⟩
  · obtain ⟨Ω, mΩ, P, U, hP, hU⟩ := uniformDraws_exist (ℕ × SphDraw)
    obtain ⟨r, t, ρ, τ, h1, h2, h3, -, -⟩ := C145_sphere_statistics P U hU H hdet hfine hmie hrun nev
    have hr : ∀ᵐ ω ∂P, r 0 ω = oneR nev a S d (group U 0 ω) ∧ t 0 ω = oneT nev a S d (group U 0 ω) := by
      filter_upwards [h2, draws_inner hU] with ω h hω
      obtain ⟨rt, e1, e2, e3⟩ := h 0
      obtain ⟨rt', k1, k2, k3⟩ := one_eq H hdet hfine hmie hrun nev 0 (x := fun j => group U j ω) hω
      have : rt = rt' := by
        have := e1.symm.trans k1
        injection this
      subst this
      rw [e2] at k2
      rw [e3] at k3
      injection k2 with k2
      injection k3 with k3
      exact ⟨by simpa using k2, by simpa using k3⟩
    have eR : ∫ ω, r 0 ω ∂P = ∫ ω, oneR nev a S d (group U 0 ω) ∂P := integral_congr_ae (hr.mono fun _ h => h.1)
    have eT : ∫ ω, t 0 ω ∂P = ∫ ω, oneT nev a S d (group U 0 ω) ∂P := integral_congr_ae (hr.mono fun _ h => h.2)
    rw [(h3 0).2.2.1, law mR P U hU 0] at eR
    rw [(h3 0).2.2.2, law mT P U hU 0] at eT
    rw [← eR, ← eT]
    exact h1
  · intro Ω _ P _ u hu N b pos w hw
    let U : ℕ × SphDraw → Ω → ℝ := fun x ω => u (sphPlace pos (N + 1) nev x) ω
    have hU : UniformDraws P U := ⟨fun _ => hu.meas _, fun _ => hu.law _, hu.indep.precomp (sphPlace_inj pos (N + 1) nev)⟩
    have bR : ∀ j ω, IsFraction (oneR nev a S d (group U j ω)) :=
      fun j ω => ⟨(hfr _).1, by linarith [(hfr (group U j ω)).2.1, (hfr (group U j ω)).2.2]⟩
    have bT : ∀ j ω, IsFraction (oneT nev a S d (group U j ω)) :=
      fun j ω => ⟨(hfr _).2.1, by linarith [(hfr (group U j ω)).1, (hfr (group U j ω)).2.2]⟩
    have mean : ∀ {F : (SphDraw → ℝ) → ℝ}, Measurable F → (∀ j ω, IsFraction (F (group U j ω))) →
        Integrable (fun ω => (∑ j : Fin (N + 1), F (group U j ω)) / ((N + 1 : ℕ) : ℝ)) P ∧
        ∫ ω, (∑ j : Fin (N + 1), F (group U j ω)) / ((N + 1 : ℕ) : ℝ) ∂P = ∫ x, F x ∂(Measure.infinitePi fun _ : SphDraw => unif) := by
      intro F hF hb
      have hi : ∀ j, Integrable (fun ω => F (group U j ω)) P := fun j =>
        Integrable.of_bound (hF.comp (group_meas hU j)).aestronglyMeasurable 1 (Eventually.of_forall fun ω => by
          rw [Real.norm_eq_abs, abs_of_nonneg (hb j ω).1]; exact (hb j ω).2)
      refine ⟨(integrable_finsetSum Finset.univ fun (j : Fin (N + 1)) _ => hi j).div_const _, ?_⟩
      rw [integral_div, integral_finsetSum _ fun (j : Fin (N + 1)) _ => hi j,
        Finset.sum_congr rfl fun (j : Fin (N + 1)) _ => law hF P U hU j]
      rw [Finset.sum_const, Finset.card_univ, Fintype.card_fin, nsmul_eq_mul]
      have : ((N + 1 : ℕ) : ℝ) ≠ 0 := by positivity
      field_simp
    refine ⟨fun ω => (∑ j : Fin (N + 1), oneR nev a S d (group U j ω)) / ((N + 1 : ℕ) : ℝ),
      fun ω => (∑ j : Fin (N + 1), oneT nev a S d (group U j ω)) / ((N + 1 : ℕ) : ℝ), ?_, ?_, ?_⟩
    · filter_upwards [draws_inner hU] with ω hω
      obtain ⟨rt, k1, k2, k3⟩ := one_eq H hdet hfine hmie hrun nev N (x := fun j => group U j ω) hω
      have e := sphere_numbers (nt := N + 1) b nev a S d (w ω) H.sphere hmie
      rw [stream_congr nev (N + 1) a S d hmie (y := fun j => group U j ω) (by
        intro j hj q hq
        obtain ⟨r, hr⟩ := Option.isSome_iff_exists.mp hq
        simp only [photonNumbers, (deepRow_eq hr).1, group, U, sphPlace, hr, hj, if_true, hw ω]), k1] at e
      rcases hx : runSphereRng b b nev (sphereSettings a (N + 1)) (streamSampling S (N + 1) fun _ _ => 0) d (w ω) with er | ⟨rt', w'⟩
      · rw [hx] at e; cases e
      rw [hx] at e
      injection e with e
      have : rt' = rt := e
      subst this
      exact ⟨rt', w', rfl, k2, k3⟩
    · exact ⟨(mean mR bR).1, (mean mT bT).1, (mean mR bR).2, (mean mT bT).2⟩
    · intro ε hε
      have h1 := hoeffding_group hU mR bR N hε
      have h2 := hoeffding_group hU mT bT N hε
      rw [law mR P U hU 0] at h1
      rw [law mT P U hU 0] at h2
      exact ⟨h1, h2⟩

/-! ## How far a run reads -/

/-- two generators at the same position that deliver the same numbers before position `m` -/
def AgreeTo (m : ℕ) (g g' : Gen) : Prop := g.pos = g'.pos ∧ ∀ i, g.pos ≤ i → i < m → g.stream i = g'.stream i

theorem agree_advance {b : Bool} {w w' : World} {m : ℕ} (h : AgreeTo m (w.gen b) (w'.gen b)) (k : ℕ) :
    AgreeTo m ((w.advance b k).gen b) ((w'.advance b k).gen b) := by
  rw [gen_advance, gen_advance]
  exact ⟨by dsimp only; rw [h.1], fun i hi him => h.2 i (by dsimp only at hi; omega) him⟩

theorem agree_less {m m' : ℕ} {g g' : Gen} (h : AgreeTo m g g') (hm : m' ≤ m) : AgreeTo m' g g' := ⟨h.1, fun i hi him => h.2 i hi (by omega)⟩

theorem table_agree {g g' : Gen} {rows : ℕ} (h : AgreeTo (g.pos + rows * nt) g g') : g.table rows nt = g'.table rows nt := by
  funext i j
  unfold Gen.table
  by_cases hi : i < rows
  · rw [if_pos hi, if_pos hi, ← h.1]
    refine h.2 _ (by omega) ?_
    have : (i + 1) * nt ≤ rows * nt := Nat.mul_le_mul_right _ hi
    rw [add_mul, one_mul] at this
    have := j.isLt
    omega
  · rw [if_neg hi, if_neg hi]

theorem vec_agree {g g' : Gen} (h : AgreeTo (g.pos + nt) g g') : g.vec nt = g'.vec nt := by
  funext j
  unfold Gen.vec
  rw [← h.1]
  exact h.2 _ (by omega) (by have := j.isLt; omega)

theorem angles_agree {b : Bool} {N : ℕ} (p : Fin (n + 1) → ℝ) (m : ℝ) {w w' : World}
    (h : AgreeTo ((w.gen b).pos + ((N - 1) * nt + (N - 1) * nt)) (w.gen b) (w'.gen b)) :
    (∃ e, sampleAnglesRng (nt := nt) b N p m w = .error e ∧ sampleAnglesRng (nt := nt) b N p m w' = .error e) ∨
      ∃ r : Angles nt, sampleAnglesRng b N p m w = .ok (r, w.advance b ((N - 1) * nt + (N - 1) * nt)) ∧
        sampleAnglesRng b N p m w' = .ok (r, w'.advance b ((N - 1) * nt + (N - 1) * nt)) := by
  unfold sampleAnglesRng
  simp only [advance_advance]
  rw [table_agree (nt := nt) (rows := N - 1) (agree_less h (by omega)),
    table_agree (nt := nt) (rows := N - 1) (agree_less (agree_advance h ((N - 1) * nt)) (by rw [gen_advance]; dsimp only; omega))]
  generalize sampleAnglesRng1 _ _ _ _ _ = x
  rcases x with e | r
  · exact Or.inl ⟨e, rfl, rfl⟩
  · exact Or.inr ⟨r, rfl, rfl⟩

theorem step_agree {b : Bool} {N : ℕ} (mu : ℝ) (mie : Option ℝ) (fr : ℝ) (hm : mie = none ∨ fr = 0) {w w' : World}
    (h : AgreeTo ((w.gen b).pos + N * nt) (w.gen b) (w'.gen b)) :
    (∃ e, sampleStepRng b N nt mu mie fr w = .error e ∧ sampleStepRng b N nt mu mie fr w' = .error e) ∨
      ∃ r, sampleStepRng b N nt mu mie fr w = .ok (r, w.advance b (N * nt)) ∧ sampleStepRng b N nt mu mie fr w' = .ok (r, w'.advance b (N * nt)) := by
  unfold sampleStepRng
  dsimp only
  rw [table_agree h]
  rw [sampleStep_mie hm ((w'.gen b).table N nt) _ fun i => ((w'.advance b (N * nt)).gen b).stream (((w'.advance b (N * nt)).gen b).pos + i)]
  have e : ∀ v : World, (if mie.isSome then (v.advance b (N * nt)).advance b (pyRound (nt * fr)).toNat else v.advance b (N * nt)) = v.advance b (N * nt) := by
    intro v
    rcases hm with rfl | rfl
    · rfl
    · rw [pyRound_zero, advance_zero, ite_self]
  rw [e w, e w']
  generalize sampleStep _ _ _ _ _ _ = x
  rcases x with e | r
  · exact Or.inl ⟨e, rfl, rfl⟩
  · exact Or.inr ⟨r, rfl, rfl⟩

theorem rerun_agree {b : Bool} {N : ℕ} (m : Medium (n + 1)) (start : Fin nt → XV × XV) (W : Fin nt → XF) {w w' : World}
    (h : AgreeTo ((w.gen b).pos + rerunCount nt N) (w.gen b) (w'.gen b)) :
    (∃ e, rerunRng b N m start W w = .error e ∧ rerunRng b N m start W w' = .error e) ∨
      ∃ r, rerunRng b N m start W w = .ok (r, w.advance b (rerunCount nt N)) ∧ rerunRng b N m start W w' = .ok (r, w'.advance b (rerunCount nt N)) := by
  unfold rerunRng
  rcases angles_agree (nt := nt) (N := N) m.p (1 / 100) (agree_less h (by unfold rerunCount; omega)) with ⟨e, h1, h2⟩ | ⟨r, h1, h2⟩
  · rw [h1, h2]; exact Or.inl ⟨e, rfl, rfl⟩
  rcases step_agree (N := N) (nt := nt) m.mu_scat m.mu_scat_mie 0 (Or.inr rfl) (agree_less (agree_advance h ((N - 1) * nt + (N - 1) * nt)) (by
    rw [gen_advance]; unfold rerunCount; dsimp only; omega)) with ⟨e, h3, h4⟩ | ⟨s, h3, h4⟩
  · rw [h1, h2]
    simp only [Bind.bind, Except.bind, h3, h4]
    exact Or.inl ⟨e, rfl, rfl⟩
  rw [h1, h2]
  simp only [Bind.bind, Except.bind, h3, h4, advance_advance]
  exact Or.inr ⟨_, rfl, rfl⟩

theorem calc_advances {b : Bool} {D : ℝ} {m : Medium (n + 1)} {run : Bool} {max_stuck : ℝ} {on o : Weights.Optics} {maxDepth depth nev : ℕ}
    {t : SphTrajs nt} {w w1 : World} {r : Weights.RT nt} (h : calcSphereRng b D m run max_stuck on o maxDepth depth nev t w = .ok (r, w1)) :
    (w.gen b).pos ≤ (w1.gen b).pos := by
  obtain ⟨e, he⟩ := calc_local D m run max_stuck on _ o maxDepth depth nev t (w.gen b) (Nat.lt_succ_self _)
  rw [he b w rfl] at h
  rcases e with er | r
  · cases h
  injection h with h
  have : w1 = w.advance b r.2 := (congrArg Prod.snd h).symm
  subst this
  rw [gen_advance]; exact Nat.le_add_right _ _

theorem calc_agree (D : ℝ) (m : Medium (n + 1)) (run : Bool) (max_stuck : ℝ) (on : Weights.Optics) (b : Bool) :
    ∀ (M : ℕ) (o : Weights.Optics) (maxDepth depth nev : ℕ) (t : SphTrajs nt) (w w' w1 : World) (r : Weights.RT nt),
      calcSphereRng b D m run max_stuck on o maxDepth depth nev t w = .ok (r, w1) → AgreeTo (w1.gen b).pos (w.gen b) (w'.gen b) →
      2 * (Weights.defaultMaxCallDepth - depth) + min 1 (maxDepth - depth) < M →
      ∃ w1', calcSphereRng b D m run max_stuck on o maxDepth depth nev t w' = .ok (r, w1') ∧ (w1'.gen b).pos = (w1.gen b).pos := by
  intro M
  induction M with
  | zero => intro _ _ _ _ _ _ _ _ _ _ _ h; omega
  | succ M ih =>
    intro o maxDepth depth nev t w w' w1 r h hw hM
    rw [calcSphereRng] at h ⊢
    rcases hl : Weights.level o (sphereGeometry nev o D t) none (decide (0 < depth)) (fun (e : Fin nev) j => t.weight e j) with er | l
    · rw [hl] at h; cases h
    rw [hl] at h
    by_cases hc : run = true ∧ depth < maxDepth ∧ (fin max_stuck : XF) < l.totalStuck
    swap
    · simp only [Bind.bind, Except.bind, dif_neg hc] at h ⊢
      injection h with h
      have e1 := congrArg Prod.fst h
      have e2 := congrArg Prod.snd h
      dsimp only at e1 e2
      subst e1 e2
      exact ⟨w', rfl, hw.1.symm⟩
    simp only [Bind.bind, Except.bind, dif_pos hc] at h ⊢
    generalize Restart.restart D _ _ _ = s at h ⊢
    rcases s with er | start
    · cases h
    dsimp only at h ⊢
    rw [rerun_local] at h
    rcases hx : rerunRng true (nev + 1) m start (Restart.restartWeight l.exit.reflFresnel l.exit.transFresnel l.out.stuck) (alone (w.gen b)) with er | ⟨t', v⟩
    · rw [hx] at h; cases h
    rw [hx] at h
    simp only [Except.map] at h
    rcases hy : calcSphereRng b D m run max_stuck on on Weights.defaultMaxCallDepth (depth + 1) (nev + 1) t' (w.advance b (rerunCount nt (nev + 1))) with er | ⟨r', v'⟩
    · rw [hy] at h; cases h
    rw [hy] at h
    injection h with h
    have e1 := congrArg Prod.fst h
    have e2 : v' = w1 := congrArg Prod.snd h
    dsimp only at e1
    subst e2
    have hadv := calc_advances hy
    rw [gen_advance] at hadv
    have hxx : rerunRng b (nev + 1) m start (Restart.restartWeight l.exit.reflFresnel l.exit.transFresnel l.out.stuck) w =
        .ok (t', w.advance b (rerunCount nt (nev + 1))) := by
      rw [rerun_local, hx]; rfl
    rcases rerun_agree m start (Restart.restartWeight l.exit.reflFresnel l.exit.transFresnel l.out.stuck) (N := nev + 1) (agree_less hw hadv) with
      ⟨e, h1, h2⟩ | ⟨r2, h1, h2⟩
    · rw [hxx] at h1; cases h1
    have : r2 = t' := by
      rw [hxx] at h1
      injection h1 with h1
      exact (congrArg Prod.fst h1).symm
    subst this
    obtain ⟨w2, k1, k2⟩ := ih on Weights.defaultMaxCallDepth (depth + 1) (nev + 1) r2 _ (w'.advance b (rerunCount nt (nev + 1))) v' r' hy
      (agree_advance hw _) (by
      have := hc.2.1
      simp only [Weights.defaultMaxCallDepth] at *
      omega)
    rw [h2]
    dsimp only
    rw [k1]
    exact ⟨w2, by rw [← e1]; rfl, k2⟩

/-- C158: a sphere run reads no further than to where it leaves its generator.  The result, and the place where the generator is left, are the same for
every other generator that delivers the same numbers up to there.  So runs that follow one another use different numbers. -/
theorem C158_reads_no_further (b : Bool) (nev : ℕ) (a : Args nt) (S : Sampling nt (n + 1)) (d : SphereArgs) (w w1 w' : World) (rt : Weights.RT nt)
    (hb : a.boundary = .sphere) (hm : S.mu_scat_mie = none ∨ S.fine_roughness = 0) (h : runSphereRng b b nev a S d w = .ok (rt, w1))
    (hpos : (w'.gen b).pos = (w.gen b).pos)
    (hs : ∀ i, (w.gen b).pos ≤ i → i < (w1.gen b).pos → (w'.gen b).stream i = (w.gen b).stream i) :
    ∃ w1', runSphereRng b b nev a S d w' = .ok (rt, w1') ∧ (w1'.gen b).pos = (w1.gen b).pos := by
  have hw : AgreeTo (w1.gen b).pos (w.gen b) (w'.gen b) := ⟨hpos.symm, fun i hi him => (hs i hi him).symm⟩
  unfold runSphereRng at h ⊢
  rcases hx : simulateRng b nev a none S w with er | ⟨t, v⟩
  · rw [hx] at h; cases h
  rw [hx] at h
  simp only [Bind.bind, Except.bind] at h
  have hv : v = w.advance b (simulateCount nev a none S) := by
    rw [simulate_local] at hx
    rcases hy : simulateRng true nev a none S (alone (w.gen b)) with er | r
    · rw [hy] at hx; cases hx
    rw [hy] at hx
    injection hx with hx
    exact (congrArg Prod.snd hx).symm
  have hadv := calc_advances h
  rw [hv, gen_advance] at hadv
  dsimp only at hadv
  have hcount : nt + nt + ((nev - 1) * nt + (nev - 1) * nt) + nev * nt ≤ simulateCount nev a none S := by
    unfold simulateCount initCount
    rw [hb]
    dsimp only
    omega
  have hsim : ∃ v', simulateRng b nev a none S w' = .ok (t, v') ∧ v' = w'.advance b (simulateCount nev a none S) := by
    have hv' : ∀ t' v', simulateRng b nev a none S w' = .ok (t', v') → v' = w'.advance b (simulateCount nev a none S) := by
      intro t' v' hx
      rw [simulate_local] at hx
      rcases hy : simulateRng true nev a none S (alone (w'.gen b)) with er | r
      · rw [hy] at hx; cases hx
      rw [hy] at hx
      injection hx with hx
      exact (congrArg Prod.snd hx).symm
    suffices hh : ∃ v', simulateRng b nev a none S w' = .ok (t, v') by
      obtain ⟨v', h1⟩ := hh
      exact ⟨v', h1, hv' t v' h1⟩
    unfold simulateRng at hx ⊢
    have hi : ∀ u : World, initializeRng b a none u = (if a.sample_diameter.isNone then (.error .valueError : Except PyErr (Props0 nt × World)) else
        (initializeTraj { a with ur := (u.gen b).vec nt, uth := ((u.advance b nt).gen b).vec nt }).map fun p => (p, u.advance b (nt + nt))) := by
      intro u
      unfold initializeRng
      split <;> rename_i hbb
      · rw [hb] at hbb; cases hbb
      · simp only [advance_advance]
      · rw [hb] at hbb; cases hbb
    rw [hi] at hx ⊢
    by_cases hd : a.sample_diameter.isNone
    · rw [if_pos hd] at hx; cases hx
    rw [if_neg hd] at hx ⊢
    rw [← vec_agree (nt := nt) (agree_less hw (by omega)),
      ← vec_agree (nt := nt) (agree_less (agree_advance hw nt) (by rw [gen_advance]; dsimp only; omega))]
    generalize initializeTraj _ = p at hx ⊢
    rcases p with er | p0
    · cases hx
    simp only [Except.map, Bind.bind, Except.bind] at hx ⊢
    rcases angles_agree (nt := nt) (N := nev) S.p S.min_angle (agree_less (agree_advance hw (nt + nt)) (by rw [gen_advance]; dsimp only; omega)) with
      ⟨e, h1, h2⟩ | ⟨r, h1, h2⟩
    · rw [h1] at hx; cases hx
    rw [h1] at hx
    rw [h2]
    dsimp only at hx ⊢
    rcases step_agree (nt := nt) (N := nev) S.mu_scat S.mu_scat_mie S.fine_roughness hm
      (agree_less (agree_advance (agree_advance hw (nt + nt)) ((nev - 1) * nt + (nev - 1) * nt)) (by
        rw [gen_advance, gen_advance]; dsimp only; omega)) with ⟨e, h3, h4⟩ | ⟨s, h3, h4⟩
    · rw [h3] at hx; cases hx
    rw [h3] at hx
    rw [h4]
    injection hx with hx
    have := congrArg Prod.fst hx
    dsimp only at this ⊢
    rw [← this]
    exact ⟨_, rfl⟩
  obtain ⟨v', h1, h2⟩ := hsim
  rw [h1]
  simp only [Bind.bind, Except.bind]
  subst hv h2
  exact calc_agree _ _ _ _ _ b _ _ _ _ _ _ _ _ w1 rt h (agree_advance hw _) (Nat.lt_succ_self _)

/-- Non-vacuity of C158: a sphere of diameter 2 and index 3/2 in air, isotropic scattering, absorption, with light reflected back shared out and with
all of it run again; and a generator with independent uniform numbers. -/
example (run : Bool) : ∃ (Ω : Type) (_ : MeasurableSpace Ω) (P : Measure Ω) (_ : IsProbabilityMeasure P) (u : ℕ → Ω → ℝ) (w : Ω → World) (a : Args 1)
    (S : Sampling 1 3) (d : SphereArgs) (draws : ℕ → Draws 1 3), UniformDraws P u ∧ (∀ ω, (w ω).gen true = ⟨fun i => u i ω, 0⟩) ∧
    SphereDomain a S d draws ∧ d.detection_angle = Real.pi / 2 ∧ d.fine_roughness = 0 ∧ S.mu_scat_mie = none ∧ d.run_fresnel_traj = run ∧
    d.max_stuck < 0 := by
  obtain ⟨Ω, mΩ, P, U, hP, hU⟩ := uniformDraws_exist ℕ
  have h := demo_sphereRun 1 zero_le_one
  exact ⟨Ω, mΩ, P, hP, U, fun ω => alone ⟨fun i => U i ω, 0⟩, _, _, ⟨1, 3 / 2, 2, none, none, Real.pi / 2, 0, none, none, run, 20, -1⟩, _, hU,
    fun _ => rfl,
    { h with diameter := h.diameter, diameter_pos := h.diameter_pos, spot := h.spot, same_medium := h.same_medium, same_sample := h.same_sample
             medium_pos := h.medium_pos, not_denser := h.not_denser, front := h.front, back := h.back, particle := h.particle, matrix := h.matrix
             fine := h.fine }, rfl, rfl, rfl, rfl, by norm_num⟩

/-- Non-vacuity of C158: such runs succeed, when the numbers are between 0 and 1 -/
theorem sphere_run_ok {a : Args 1} {S : Sampling 1 (n + 1)} {d : SphereArgs} {draws : ℕ → Draws 1 (n + 1)} (H : SphereDomain a S d draws)
    (hdet : d.detection_angle = Real.pi / 2)
    (hfine : d.fine_roughness = 0 ∨ ∀ p m, d.n_particle = some p → d.n_matrix = some m → d.n_sample ≤ max p m)
    (hmie : S.mu_scat_mie = none ∨ S.fine_roughness = 0) (hrun : d.run_fresnel_traj = false ∨ d.max_stuck < 0) (nev N : ℕ) (b : Bool) (w : World)
    (hw : ∀ i, 0 < (w.gen b).stream i ∧ (w.gen b).stream i < 1) :
    ∃ rt w1, runSphereRng b b nev (sphereSettings a (N + 1)) (streamSampling S (N + 1) fun _ _ => 0) d w = .ok (rt, w1) := by
  let x : ℕ → SphDraw → ℝ := fun j q => if (deepRow nev q).isSome then photonNumbers (w.gen b) nev (N + 1) j q else 1 / 2
  have hx : ∀ j, Inner (x j) := by
    intro j q
    show 0 < (if _ then _ else _ : ℝ) ∧ (if _ then _ else _ : ℝ) < 1
    by_cases hq : (deepRow nev q).isSome
    · rw [if_pos hq]
      obtain ⟨r, hr⟩ := Option.isSome_iff_exists.mp hq
      simp only [photonNumbers, (deepRow_eq hr).1]
      exact hw _
    · rw [if_neg hq]
      norm_num
  obtain ⟨rt, k1, -, -⟩ := one_eq H hdet hfine hmie hrun nev N hx
  have e := sphere_numbers (nt := N + 1) b nev a S d w H.sphere hmie
  rw [stream_congr nev (N + 1) a S d hmie (y := x) (by
    intro j hj q hq
    show _ = if _ then _ else _
    rw [if_pos hq]), k1] at e
  rcases hy : runSphereRng b b nev (sphereSettings a (N + 1)) (streamSampling S (N + 1) fun _ _ => 0) d w with er | ⟨rt', w'⟩
  · rw [hy] at e; cases e
  exact ⟨rt', w', rfl⟩

end
end Verif.Props
