import Verif.Model.Rng
import Verif.Props.ErrorBound

/-!
# C156: simulations with a generator of one's own
-/

namespace Verif.Props
noncomputable section
open Classical Verif.Spec Verif.Traj Verif.Simulation Verif.Init Verif.Exits Verif.Geometry Verif.Rng _root_.Verif.XF
open MeasureTheory ProbabilityTheory Filter Topology
open Verif (XF PyErr)

variable {nt : ℕ}

theorem gen_advance (w : World) (b : Bool) (n : ℕ) : (w.advance b n).gen b = ⟨(w.gen b).stream, (w.gen b).pos + n⟩ := by
  cases b <;> rfl

theorem advance_advance (w : World) (b : Bool) (n m : ℕ) : (w.advance b n).advance b m = w.advance b (n + m) := by
  cases b <;> simp [World.advance, Nat.add_assoc]

theorem advance_zero (w : World) (b : Bool) : w.advance b 0 = w := by
  cases b <;> rfl

/-- a program that has only this generator -/
def alone (g : Gen) : World := ⟨g, g⟩

theorem gen_alone (g : Gen) : (alone g).gen true = g := rfl

/-- how many numbers `initialize` draws: a place (2 per trajectory), an angle and an azimuth unless they are given, and a slope for a rough surface -/
def initCount (a : Args nt) (facet : Option (ℝ → ℝ)) : ℕ :=
  match a.boundary with
  | .film => nt + nt + (if a.theta_data.isSome then 0 else nt) + (if a.phi_data.isSome then 0 else nt) +
      (if a.coarse_roughness = 0 ∨ facet.isNone then 0 else nt)
  | .sphere => nt + nt
  | .other => 0

/-- how many numbers a simulation draws -/
def simulateCount (nevents : ℕ) (a : Args nt) (facet : Option (ℝ → ℝ)) {n : ℕ} (S : Sampling nt (n + 1)) : ℕ :=
  initCount a facet + (nevents - 1) * nt + (nevents - 1) * nt + nevents * nt +
    (if S.mu_scat_mie.isSome then (pyRound (nt * S.fine_roughness)).toNat else 0)

theorem initialize_local (a : Args nt) (facet : Option (ℝ → ℝ)) (b : Bool) (w : World) :
    initializeRng b a facet w =
      (initializeRng true a facet (alone (w.gen b))).map fun r => (r.1, w.advance b (initCount a facet)) := by
  unfold initializeRng initCount
  cases hb : a.boundary with
  | film =>
    by_cases hd : a.sample_diameter.isSome
    · simp only [hd, if_true]; rfl
    by_cases ht : a.theta_data.isSome <;> by_cases hp : a.phi_data.isSome <;> by_cases hc : a.coarse_roughness = 0 <;> rcases facet with _ | f <;>
      · simp only [hd, ht, hp, hc, if_true, if_false, gen_advance, advance_advance, Option.isNone, or_true, or_false, Bool.false_eq_true, gen_alone, Nat.add_zero]
        generalize initializeTraj _ = x
        cases x <;> rfl
  | sphere =>
    by_cases hd : a.sample_diameter.isNone
    · simp only [hd, if_true]; rfl
    simp only [hd, gen_advance, advance_advance, gen_alone]
    generalize initializeTraj _ = x
    cases x <;> rfl
  | other =>
    dsimp only
    rw [advance_zero]
    generalize initializeTraj _ = x
    cases x <;> rfl

theorem simulate_local {n : ℕ} (nevents : ℕ) (a : Args nt) (facet : Option (ℝ → ℝ)) (S : Sampling nt (n + 1)) (b : Bool) (w : World) :
    simulateRng b nevents a facet S w =
      (simulateRng true nevents a facet S (alone (w.gen b))).map fun r => (r.1, w.advance b (simulateCount nevents a facet S)) := by
  unfold simulateRng
  rw [initialize_local a facet b w, initialize_local a facet true (alone (w.gen b)), gen_alone]
  generalize initializeRng true a facet (alone (w.gen b)) = x
  rcases x with e | ⟨p0, w0⟩
  · rfl
  simp only [Except.map, sampleAnglesRng, sampleStepRng, gen_advance, advance_advance, gen_alone, Bind.bind, Except.bind]
  generalize sampleAnglesRng1 _ _ _ _ _ = y
  rcases y with e | ang
  · rfl
  simp only [gen_advance, advance_advance, gen_alone]
  generalize sampleStep _ _ _ _ _ _ = z
  rcases z with e | st
  · rfl
  simp only [Pure.pure, Except.pure, simulateCount]
  by_cases hm : S.mu_scat_mie.isSome
  · simp only [hm, if_true, Nat.add_assoc]
  · simp only [hm, if_false, Nat.add_assoc, Nat.add_zero, Bool.false_eq_true]

/-! ## Which number is used for what -/

/-- the `r`-th group of `nt` numbers delivered by a generator -/
def Gen.row (g : Gen) (nt r : ℕ) (j : Fin nt) : ℝ := g.stream (g.pos + r * nt + j)

/-- the numbers of a simulation of a smooth film, lit from a range of directions: the first four groups give each trajectory its place and its
direction of incidence -/
def drawArgs (g : Gen) (a : Args nt) : Args nt := { a with ux := Gen.row g nt 0, uy := Gen.row g nt 1, ut := Gen.row g nt 2, up := Gen.row g nt 3 }

/-- then come `nev` groups for the azimuths of scattering, `nev` groups for the scattering angles and `nev + 1` groups for the steps -/
def drawSampling {n : ℕ} (g : Gen) (nev : ℕ) (S : Sampling nt (n + 1)) : Sampling nt (n + 1) :=
  { S with
    rand_phi := fun i j => if i < nev then Gen.row g nt (4 + i) j else 0
    draw_theta := fun i j => choiceIndex (probTheta S.p S.min_angle) (if i < nev then Gen.row g nt (4 + nev + i) j else 0)
    rand_step := fun i j => if i < nev + 1 then Gen.row g nt (4 + 2 * nev + i) j else 0 }

theorem film_numbers {n : ℕ} (b : Bool) (nev : ℕ) (a : Args nt) (facet : Option (ℝ → ℝ)) (S : Sampling nt (n + 1)) (w : World)
    (hf : a.boundary = .film) (hd : a.sample_diameter = none) (ht : a.theta_data = none) (hp : a.phi_data = none)
    (hc : a.coarse_roughness = 0) (hm : S.mu_scat_mie = none) :
    simulateRng b (nev + 1) a facet S w =
      (simulate (nev + 1) (drawArgs (w.gen b) a) (drawSampling (w.gen b) nev S)).map fun t => (t, w.advance b ((5 + 3 * nev) * nt)) := by
  have hi : initializeRng b a facet w = (initializeTraj (drawArgs (w.gen b) a)).map fun p => (p, w.advance b (4 * nt)) := by
    unfold initializeRng
    rw [hf]
    simp only [hd, ht, hp, hc, Option.isSome, if_true, if_false, gen_advance, advance_advance, true_or, Bool.false_eq_true]
    have e : ({ a with ux := (w.gen b).vec nt, uy := Gen.vec ⟨(w.gen b).stream, (w.gen b).pos + nt⟩ nt
                       ut := Gen.vec ⟨(w.gen b).stream, (w.gen b).pos + (nt + nt)⟩ nt
                       up := Gen.vec ⟨(w.gen b).stream, (w.gen b).pos + (nt + nt + nt)⟩ nt } : Args nt) = drawArgs (w.gen b) a := by
      unfold drawArgs Gen.row Gen.vec
      congr 1 <;> funext j <;> refine congrArg (w.gen b).stream ?_ <;> ring
    rw [← e, show nt + nt + nt + nt = 4 * nt by ring]
    simp only [hf, hd, ht, hp, hc]
  unfold simulateRng simulate
  rw [hi]
  generalize initializeTraj (drawArgs (w.gen b) a) = x
  rcases x with e | p0
  · rfl
  simp only [Except.map, sampleAnglesRng, sampleStepRng, gen_advance, advance_advance, Bind.bind, Except.bind, Nat.add_sub_cancel, hm,
    Option.isSome, if_false, Bool.false_eq_true]
  have e1 : sampleAnglesRng1 (nev + 1) S.p S.min_angle (Gen.table ⟨(w.gen b).stream, (w.gen b).pos + (4 * nt + nev * nt)⟩ nev nt)
      (Gen.table ⟨(w.gen b).stream, (w.gen b).pos + 4 * nt⟩ nev nt) =
      sampleAngles1 (nev + 1) (drawSampling (w.gen b) nev S).p (drawSampling (w.gen b) nev S).min_angle
        (drawSampling (w.gen b) nev S).draw_theta (drawSampling (w.gen b) nev S).rand_phi := by
    unfold sampleAnglesRng1 drawSampling Gen.table Gen.row
    dsimp only
    congr 1 <;> funext i j
    · congr 1; congr 1; congr 1; ring
    · congr 1; congr 1; ring
  have e2 : sampleStep nt S.mu_scat none S.fine_roughness (Gen.table ⟨(w.gen b).stream, (w.gen b).pos + (4 * nt + nev * nt + nev * nt)⟩ (nev + 1) nt)
      = fun mie => sampleStep nt (drawSampling (w.gen b) nev S).mu_scat (drawSampling (w.gen b) nev S).mu_scat_mie
        (drawSampling (w.gen b) nev S).fine_roughness (drawSampling (w.gen b) nev S).rand_step mie := by
    funext mie
    unfold drawSampling Gen.table Gen.row
    dsimp only
    rw [hm]
    congr 1; funext i j
    congr 1; congr 1; ring
  rw [e1]
  generalize sampleAngles1 _ _ _ _ _ = y
  rcases y with e | ang
  · rfl
  simp only [gen_advance, advance_advance]
  rw [e2]
  beta_reduce
  have e3 : ∀ m m', sampleStep nt (drawSampling (w.gen b) nev S).mu_scat (drawSampling (w.gen b) nev S).mu_scat_mie
        (drawSampling (w.gen b) nev S).fine_roughness (drawSampling (w.gen b) nev S).rand_step m =
      sampleStep nt (drawSampling (w.gen b) nev S).mu_scat (drawSampling (w.gen b) nev S).mu_scat_mie
        (drawSampling (w.gen b) nev S).fine_roughness (drawSampling (w.gen b) nev S).rand_step m' := by
    intro m m'
    unfold sampleStep
    rw [show (drawSampling (w.gen b) nev S).mu_scat_mie = none from hm]
  rw [e3 (fun i => _) (drawSampling (w.gen b) nev S).rand_mie]
  generalize sampleStep _ _ _ _ _ _ = z
  rcases z with e | st
  · rfl
  simp only [Pure.pure, Except.pure]
  congr 2
  congr 1
  ring

/-! ## The statistical error of a run with a generator -/

/-- the group of numbers from which a draw of a photon is taken -/
def usedRow (nev : ℕ) : Draw → Option ℕ
  | .beamTheta => some 2
  | .beamPhi => some 3
  | .azimuth i => if i < nev then some (4 + i) else none
  | .angle i => if i < nev then some (4 + nev + i) else none
  | .step i => if i < nev + 1 then some (4 + 2 * nev + i) else none

def drawCode : Draw → ℕ
  | .beamTheta => 0
  | .beamPhi => 1
  | .azimuth i => 3 * i + 2
  | .angle i => 3 * i + 3
  | .step i => 3 * i + 4

theorem drawCode_inj : Function.Injective drawCode := by
  intro x y h
  cases x <;> cases y <;> simp only [drawCode] at h <;> first | rfl | omega | (congr 1; omega)

theorem usedRow_lt {nev : ℕ} {x : Draw} {r : ℕ} (h : usedRow nev x = some r) : r < 5 + 3 * nev := by
  cases x <;> simp only [usedRow] at h <;> (try split_ifs at h) <;> cases h <;> omega

theorem usedRow_inj {nev : ℕ} {x y : Draw} {r : ℕ} (h : usedRow nev x = some r) (h' : usedRow nev y = some r) : x = y := by
  cases x <;> cases y <;> simp only [usedRow] at h h' <;> (try split_ifs at h) <;> (try split_ifs at h') <;>
    (try cases h) <;> (try injection h' with h') <;> first | rfl | omega | (congr 1; omega)

/-- the position in the stream of a draw of a photon; draws that are not used get positions behind all the others -/
def place (p N nev : ℕ) (x : ℕ × Draw) : ℕ :=
  match usedRow nev x.2 with
  | some r => if x.1 < N then p + r * N + x.1 else p + (5 + 3 * nev) * N + Nat.pair x.1 (drawCode x.2)
  | none => p + (5 + 3 * nev) * N + Nat.pair x.1 (drawCode x.2)

theorem place_cases (p N nev : ℕ) (x : ℕ × Draw) :
    (∃ r, usedRow nev x.2 = some r ∧ x.1 < N ∧ r < 5 + 3 * nev ∧ place p N nev x = p + r * N + x.1) ∨
      place p N nev x = p + (5 + 3 * nev) * N + Nat.pair x.1 (drawCode x.2) := by
  unfold place
  cases h : usedRow nev x.2 with
  | none => exact Or.inr rfl
  | some r =>
    by_cases hj : x.1 < N
    · exact Or.inl ⟨r, rfl, hj, usedRow_lt h, by simp [hj]⟩
    · exact Or.inr (by simp [hj])

theorem place_inj (p N nev : ℕ) : Function.Injective (place p N nev) := by
  have key : ∀ r j, r < 5 + 3 * nev → j < N → p + r * N + j < p + (5 + 3 * nev) * N := by
    intro r j hr hj
    have : (r + 1) * N ≤ (5 + 3 * nev) * N := Nat.mul_le_mul_right _ hr
    rw [add_mul, one_mul] at this
    omega
  intro x y h
  rcases place_cases p N nev x with ⟨r, hr, hj, hlt, e⟩ | e <;> rcases place_cases p N nev y with ⟨r', hr', hj', hlt', e'⟩ | e' <;> rw [e, e'] at h
  · have h' : r * N + x.1 = r' * N + y.1 := by omega
    have hN : 0 < N := by omega
    have h1 : x.1 = y.1 := by
      have := congrArg (· % N) h'
      simpa [Nat.add_mod, Nat.mod_eq_of_lt hj, Nat.mod_eq_of_lt hj'] using this
    have h2 : r = r' := by
      rw [h1] at h'
      exact Nat.eq_of_mul_eq_mul_right hN (by omega)
    subst h2
    exact Prod.ext h1 (usedRow_inj hr hr')
  · have := key r x.1 hlt hj
    omega
  · have := key r' y.1 hlt' hj'
    omega
  · have h' : Nat.pair x.1 (drawCode x.2) = Nat.pair y.1 (drawCode y.2) := by omega
    have := Nat.pair_eq_pair.mp h'
    exact Prod.ext this.1 (drawCode_inj this.2)

/-- the draws of a photon without those it does not use -/
def trim (nev : ℕ) (x : Draw → ℝ) (d : Draw) : ℝ := if (usedRow nev d).isSome then x d else 0

section Trim
variable {n : ℕ} {θ0 θ1 φ0 φ1 : ℝ} {p : Fin (n + 1) → ℝ} {m mu mua nm ns : ℝ} {nev : ℕ} {x : Draw → ℝ}

theorem colK_trim (i : ℕ) (hi : i ≤ nev) : colK θ0 θ1 φ0 φ1 p m nm ns (trim nev x) i = colK θ0 θ1 φ0 φ1 p m nm ns x i := by
  induction i with
  | zero => simp [colK, trim, usedRow]
  | succ i ih =>
    have h : i < nev := by omega
    have h1 : trim nev x (.angle i) = x (.angle i) := by simp [trim, usedRow, h]
    have h2 : trim nev x (.azimuth i) = x (.azimuth i) := by simp [trim, usedRow, h]
    simp only [colK]
    rw [ih (by omega), h1, h2]

theorem colS_trim (i : ℕ) (hi : i ≤ nev) : colS mu (trim nev x) i = colS mu x i := by
  have : i < nev + 1 := by omega
  simp [colS, trim, usedRow, this]

theorem colZ_trim (i : ℕ) (hi : i ≤ nev + 1) : colZ θ0 θ1 φ0 φ1 p m mu nm ns (trim nev x) i = colZ θ0 θ1 φ0 φ1 p m mu nm ns x i := by
  induction i with
  | zero => rfl
  | succ i ih =>
    simp only [colZ]
    rw [ih (by omega), colS_trim i (by omega), colK_trim i (by omega)]

theorem colW_trim (i : ℕ) (hi : i ≤ nev) : colW mu mua (trim nev x) i = colW mu mua x i := by
  have : ∀ i, i ≤ nev → cumsum (fun e => colS mu (trim nev x) e) i = cumsum (fun e => colS mu x e) i := by
    intro i
    induction i with
    | zero => intro h; exact colS_trim 0 h
    | succ i ih =>
      intro h
      show cumsum _ i + _ = cumsum _ i + _
      rw [ih (by omega)]
      exact congrArg _ (colS_trim (i + 1) h)
  unfold colW
  rw [this i hi]

end Trim

/-! ## C156 -/

theorem filmRun_draws {n : ℕ} {a : Args nt} {S : Sampling nt (n + 1)} {d : DetArgs} (H : FilmRun a S d) {g : Gen}
    (hr : ∀ i, 0 ≤ g.stream i ∧ g.stream i < 1) (nev : ℕ) : FilmRun (drawArgs g a) (drawSampling g nev S) d :=
  { H with
    draw_t := fun _ => hr _
    draw_p := fun _ => hr _
    rand_phi := fun i j => by
      show 0 ≤ (if _ then _ else _ : ℝ) ∧ (if _ then _ else _ : ℝ) < 1
      split
      · exact hr _
      · exact ⟨le_rfl, one_pos⟩
    rand_step := fun i j => by
      show 0 ≤ (if _ then _ else _ : ℝ) ∧ (if _ then _ else _ : ℝ) < 1
      split
      · exact hr _
      · exact ⟨le_rfl, one_pos⟩ }

/-- a simulation of a smooth film, and the same simulation of any number of photons, fed with independent numbers of their own -/
theorem seeded_run {n : ℕ} {Ω : Type} [MeasurableSpace Ω] (P : Measure Ω) (u : ℕ → Ω → ℝ)
    (hu : UniformDraws P u) (hr : ∀ i ω, 0 ≤ u i ω ∧ u i ω < 1) {nt : ℕ} (a : Args (nt + 1)) (facet : Option (ℝ → ℝ))
    (S : Sampling (nt + 1) (n + 1)) (d : DetArgs) (H : FilmRun a S d) (hsm : a.coarse_roughness = 0) (hat : a.theta_data = none)
    (hap : a.phi_data = none) (hm : S.mu_scat_mie = none) (b : Bool) (pos : ℕ) (w : Ω → World) (hw : ∀ ω, (w ω).gen b = ⟨fun i => u i ω, pos⟩)
    (nev : ℕ) :
    ∃ (U : ℕ × Draw → Ω → ℝ) (a' : (nt : ℕ) → Ω → Args (nt + 1)) (S' : (nt : ℕ) → Ω → Sampling (nt + 1) (n + 1)), UniformDraws P U ∧
      StreamRun U a.theta_min a.theta_max a.phi_min a.phi_max S.p S.min_angle S.mu_scat S.mu_abs a' S' ∧
      (∀ nt ω, FilmRun (a' nt ω) (S' nt ω) d) ∧ ∀ ω, ∃ t t' w', simulateRng b (nev + 1) a facet S (w ω) = .ok (t, w') ∧
        simulate (nev + 1) (drawArgs ⟨fun i => u i ω, pos⟩ a) (drawSampling ⟨fun i => u i ω, pos⟩ nev S) = .ok t ∧
        simulate (nev + 1) (a' nt ω) (S' nt ω) = .ok t' ∧ simPhoton nev d t = simPhoton nev d t' := by
  let U : ℕ × Draw → Ω → ℝ := fun x ω => u (place pos (nt + 1) nev x) ω
  have hU : UniformDraws P U := ⟨fun _ => hu.meas _, fun _ => hu.law _, hu.indep.precomp (place_inj pos (nt + 1) nev)⟩
  -- the families, for a stream of draws
  let A : (ℕ × Draw → Ω → ℝ) → (k : ℕ) → Ω → Args (k + 1) := fun V k ω =>
    ⟨a.n_medium, a.n_sample, .film, a.theta_min, a.theta_max, none, a.phi_min, a.phi_max, none, a.spot_size, none, 0, fun _ => 0, fun _ => 0,
      fun j => V (j, .beamTheta) ω, fun j => V (j, .beamPhi) ω, fun _ => 0, fun _ => 0, fun _ => 0⟩
  let B : (ℕ × Draw → Ω → ℝ) → (k : ℕ) → Ω → Sampling (k + 1) (n + 1) := fun V k ω =>
    { p := S.p, min_angle := S.min_angle, draw_theta := fun i j => choiceIndex (probTheta S.p S.min_angle) (V (j, .angle i) ω),
      rand_phi := fun i j => V (j, .azimuth i) ω, mu_scat := S.mu_scat, mu_scat_mie := none, fine_roughness := S.fine_roughness,
      rand_step := fun i j => V (j, .step i) ω, rand_mie := S.rand_mie, mu_abs := S.mu_abs }
  have hR : StreamRun U a.theta_min a.theta_max a.phi_min a.phi_max S.p S.min_angle S.mu_scat S.mu_abs (A U) (B U) := by
    constructor <;> intros <;> rfl
  have hF : ∀ k ω, FilmRun (A U k ω) (B U k ω) d := fun k ω =>
    { nt_pos := Nat.succ_pos _, film := rfl, no_diameter := rfl, theta_len := fun l hl => (nomatch hl), phi_len := fun l hl => (nomatch hl),
      theta_range := H.theta_range, phi_range := H.phi_range
      same_medium := H.same_medium, same_sample := H.same_sample, medium_pos := H.medium_pos, not_denser := H.not_denser, front := H.front,
      back := H.back, particle := H.particle, matrix := H.matrix, fine := H.fine, draw_t := fun j => hr _ ω, draw_p := fun j => hr _ ω,
      phase := H.phase, min_angle := H.min_angle, phase_pos := H.phase_pos, rand_phi := fun i j => hr _ ω, mu_scat := H.mu_scat,
      mu_mie := fun x hx => (nomatch hx), fine_step := H.fine_step, rand_step := fun i j => hr _ ω, rand_mie := H.rand_mie, mu_abs := H.mu_abs }
  refine ⟨U, A U, B U, hU, hR, hF, fun ω => ?_⟩
  have hD := filmRun_draws H (g := ⟨fun i => u i ω, pos⟩) (fun i => hr i ω) nev
  obtain ⟨t, ht, -⟩ := simulate_facts hD nev
  obtain ⟨t', ht', -⟩ := simulate_facts (hF nt ω) nev
  refine ⟨t, t', (w ω).advance b ((5 + 3 * nev) * (nt + 1)), ?_, ht, ht', ?_⟩
  · rw [film_numbers b nev a facet S (w ω) H.film H.no_diameter hat hap hsm hm, hw ω, ht]
    rfl
  -- the simulation itself as a family
  let V : ℕ × Draw → Ω → ℝ := fun x ω => trim nev (group U x.1 ω) x.2
  let a0 : (k : ℕ) → Ω → Args (k + 1) := fun k ω => if h : k = nt then h ▸ drawArgs ⟨fun i => u i ω, pos⟩ a else A V k ω
  let S0 : (k : ℕ) → Ω → Sampling (k + 1) (n + 1) := fun k ω =>
    if h : k = nt then h ▸ drawSampling ⟨fun i => u i ω, pos⟩ nev S else B V k ω
  have ha0 : ∀ ω, a0 nt ω = drawArgs ⟨fun i => u i ω, pos⟩ a := fun ω => by simp [a0]
  have hS0 : ∀ ω, S0 nt ω = drawSampling ⟨fun i => u i ω, pos⟩ nev S := fun ω => by simp [S0]
  have hV : ∀ (j : Fin (nt + 1)) dr r, usedRow nev dr = some r → ∀ ω, V (j, dr) ω = Gen.row ⟨fun i => u i ω, pos⟩ (nt + 1) r j := by
    intro j dr r h ω
    simp only [V, trim, h, Option.isSome, if_true, group, U, place, if_pos j.isLt]
    rfl
  have hV0 : ∀ (j : Fin (nt + 1)) dr, usedRow nev dr = none → ∀ ω, V (j, dr) ω = 0 := by
    intro j dr h ω
    simp only [V, trim, h, Option.isSome, if_false, Bool.false_eq_true]
  have hazi : ∀ i (j : Fin (nt + 1)) ω, (if i < nev then Gen.row ⟨fun i => u i ω, pos⟩ (nt + 1) (4 + i) j else 0) = V (j, .azimuth i) ω := by
    intro i j ω
    by_cases h : i < nev
    · rw [if_pos h, hV j (.azimuth i) (4 + i) (by simp [usedRow, h])]
    · rw [if_neg h, hV0 j (.azimuth i) (by simp [usedRow, h])]
  have hang : ∀ i (j : Fin (nt + 1)) ω, (if i < nev then Gen.row ⟨fun i => u i ω, pos⟩ (nt + 1) (4 + nev + i) j else 0) = V (j, .angle i) ω := by
    intro i j ω
    by_cases h : i < nev
    · rw [if_pos h, hV j (.angle i) (4 + nev + i) (by simp [usedRow, h])]
    · rw [if_neg h, hV0 j (.angle i) (by simp [usedRow, h])]
  have hstp : ∀ i (j : Fin (nt + 1)) ω, (if i < nev + 1 then Gen.row ⟨fun i => u i ω, pos⟩ (nt + 1) (4 + 2 * nev + i) j else 0) =
      V (j, .step i) ω := by
    intro i j ω
    by_cases h : i < nev + 1
    · rw [if_pos h, hV j (.step i) (4 + 2 * nev + i) (by simp [usedRow, h])]
    · rw [if_neg h, hV0 j (.step i) (by simp [usedRow, h])]
  have hR0 : StreamRun V a.theta_min a.theta_max a.phi_min a.phi_max S.p S.min_angle S.mu_scat S.mu_abs a0 S0 := by
    have hA : ∀ k ω, k ≠ nt → a0 k ω = A V k ω := fun k ω h => dif_neg h
    have hB : ∀ k ω, k ≠ nt → S0 k ω = B V k ω := fun k ω h => dif_neg h
    constructor <;> intro k ω <;> rcases eq_or_ne k nt with h | h
    all_goals first
      | (subst h; simp only [ha0, hS0, drawArgs, drawSampling, hsm, hat, hap, hm]; done)
      | (rw [hA k ω h]; done)
      | (rw [hB k ω h]; done)
      | (rw [hA k ω h]; intros; rfl)
      | (rw [hB k ω h]; intros; rfl)
      | skip
    · subst h; intro j; rw [ha0]; exact (hV j .beamTheta 2 rfl ω).symm
    · subst h; intro j; rw [ha0]; exact (hV j .beamPhi 3 rfl ω).symm
    · subst h; intro i j; rw [hS0]; exact congrArg (choiceIndex (probTheta S.p S.min_angle)) (hang i j ω)
    · subst h; intro i j; rw [hS0]; exact hazi i j ω
    · subst h; intro i j; rw [hS0]; exact hstp i j ω
  funext j
  have hc' := column hR (hF nt ω) ht' j
  have hc := column hR0 (nt := nt) (ω := ω) (d := d) (by rw [ha0, hS0]; exact hD) (t := t) (nev := nev) (by rw [ha0, hS0]; exact ht) j
  have hg : group V j ω = trim nev (group U j ω) := rfl
  rw [hg] at hc
  unfold simPhoton
  congr 1
  · funext e
    rw [hc.2.1 e (by omega), hc'.2.1 e (by omega), colZ_trim _ (by omega)]
  · funext e
    rw [hc.1 e (by omega), hc'.1 e (by omega), colK_trim _ (by omega)]
  · funext e
    rw [hc.2.2 e, hc'.2.2 e, colW_trim _ (by omega)]

/-- C156: the result of a simulation is determined by the state of the generator it works with, whether that was passed as `rng` or is the one
of the module.  The simulation leaves the other generator as it was, and takes from its own a number of numbers known beforehand. -/
theorem C156_own_generator {n : ℕ} (nevents : ℕ) (a : Args nt) (facet : Option (ℝ → ℝ)) (S : Sampling nt (n + 1)) (b : Bool) (w : World) :
    (∀ b' w', w.gen b = w'.gen b' → (simulateRng b nevents a facet S w).map Prod.fst = (simulateRng b' nevents a facet S w').map Prod.fst) ∧
    ∀ t w1, simulateRng b nevents a facet S w = .ok (t, w1) → w1.gen (!b) = w.gen (!b) ∧ (w1.gen b).stream = (w.gen b).stream ∧
      (w1.gen b).pos = (w.gen b).pos + simulateCount nevents a facet S := by
  constructor
  · intro b' w' hg
    rw [simulate_local nevents a facet S b w, simulate_local nevents a facet S b' w', hg]
    generalize simulateRng true nevents a facet S _ = x
    cases x <;> rfl
  · intro t w1 h
    rw [simulate_local] at h
    rcases hx : simulateRng true nevents a facet S (alone (w.gen b)) with e | r
    · rw [hx] at h; cases h
    rw [hx] at h
    injection h with h
    have : w1 = w.advance b (simulateCount nevents a facet S) := (congrArg Prod.snd h).symm
    subst this
    refine ⟨by cases b <;> rfl, ?_, ?_⟩ <;> rw [gen_advance]

/-- C156: the same for a whole run of a film: reflectance and transmittance are reproduced by passing a generator in the same state -/
theorem C156_film_reproducible {n : ℕ} (nev : ℕ) (a : Args nt) (facet : Option (ℝ → ℝ)) (S : Sampling nt (n + 1)) (d : DetArgs) (b b' : Bool)
    (w w' : World) (hg : w.gen b = w'.gen b') :
    (runFilmRng b nev a facet S d w).map Prod.fst = (runFilmRng b' nev a facet S d w').map Prod.fst ∧
    ∀ rt w1, runFilmRng b nev a facet S d w = .ok (rt, w1) → w1.gen (!b) = w.gen (!b) ∧ (w1.gen b).stream = (w.gen b).stream ∧
      (w1.gen b).pos = (w.gen b).pos + simulateCount (nev + 1) a facet S := by
  constructor
  · have h := (C156_own_generator (nev + 1) a facet S b w).1 b' w' hg
    unfold runFilmRng
    generalize simulateRng b (nev + 1) a facet S w = x at h
    generalize simulateRng b' (nev + 1) a facet S w' = y at h
    rcases x with e | ⟨t, v⟩ <;> rcases y with e' | ⟨t', v'⟩
    · injection h with h
      subst h
      rfl
    · cases h
    · cases h
    · injection h with h
      dsimp only at h
      subst h
      simp only [Bind.bind, Except.bind]
      generalize calcReflTransFilm nev d t = z
      cases z <;> rfl
  · intro rt w1 h
    unfold runFilmRng at h
    rcases hx : simulateRng b (nev + 1) a facet S w with e | ⟨t, v⟩
    · rw [hx] at h; cases h
    rw [hx] at h
    simp only [Bind.bind, Except.bind] at h
    rcases hz : calcReflTransFilm nev d t with e | z
    · rw [hz] at h; cases h
    rw [hz] at h
    injection h with h
    have : v = w1 := congrArg Prod.snd h
    subst this
    exact (C156_own_generator (nev + 1) a facet S b w).2 t v hx

/-- C156: two simulations, one with a generator of its own and one without, can be done in either order -/
theorem C156_any_order {n : ℕ} {nt' n' : ℕ} (N N' : ℕ) (a : Args nt) (facet facet' : Option (ℝ → ℝ)) (S : Sampling nt (n + 1)) (a' : Args nt')
    (S' : Sampling nt' (n' + 1)) (w w1 w2 : World) (t : Trajs nt) (t' : Trajs nt') (h : simulateRng true N a facet S w = .ok (t, w1))
    (h' : simulateRng false N' a' facet' S' w1 = .ok (t', w2)) :
    ∃ w3, simulateRng false N' a' facet' S' w = .ok (t', w3) ∧ simulateRng true N a facet S w3 = .ok (t, w2) := by
  have e1 : w1 = w.advance true (simulateCount N a facet S) := by
    rw [simulate_local] at h
    rcases hx : simulateRng true N a facet S (alone (w.gen true)) with e | r
    · rw [hx] at h; cases h
    rw [hx] at h
    injection h with h
    exact (congrArg Prod.snd h).symm
  subst e1
  rw [simulate_local] at h h'
  have eg : (w.advance true (simulateCount N a facet S)).gen false = w.gen false := rfl
  rw [eg] at h'
  refine ⟨w.advance false (simulateCount N' a' facet' S'), ?_, ?_⟩
  · rw [simulate_local]
    rcases hx : simulateRng true N' a' facet' S' (alone (w.gen false)) with e | r
    · rw [hx] at h'; cases h'
    rw [hx] at h'
    injection h' with h'
    have : r.1 = t' := congrArg Prod.fst h'
    subst this
    rfl
  · rw [simulate_local]
    have eg' : (w.advance false (simulateCount N' a' facet' S')).gen true = w.gen true := rfl
    rw [eg']
    rcases hx : simulateRng true N a facet S (alone (w.gen true)) with e | r
    · rw [hx] at h; cases h
    rw [hx] at h
    injection h with h
    have : r.1 = t := congrArg Prod.fst h
    subst this
    rcases hy : simulateRng true N' a' facet' S' (alone (w.gen false)) with e | r'
    · rw [hy] at h'; cases h'
    rw [hy] at h'
    injection h' with h'
    have : _ = w2 := congrArg Prod.snd h'
    subst this
    rfl

/-- C156: which number is used for what, in a simulation of a smooth film with a range of angles of incidence.  The generator's numbers come in
groups of `nt`, one group after the other (`C156_groups_disjoint`); each group has one use. -/
theorem C156_film_numbers {n : ℕ} (b : Bool) (nev : ℕ) (a : Args nt) (facet : Option (ℝ → ℝ)) (S : Sampling nt (n + 1)) (w : World)
    (hf : a.boundary = .film) (hd : a.sample_diameter = none) (ht : a.theta_data = none) (hp : a.phi_data = none)
    (hc : a.coarse_roughness = 0) (hm : S.mu_scat_mie = none) :
    simulateRng b (nev + 1) a facet S w =
      (simulate (nev + 1) (drawArgs (w.gen b) a) (drawSampling (w.gen b) nev S)).map fun t => (t, w.advance b ((5 + 3 * nev) * nt)) :=
  film_numbers b nev a facet S w hf hd ht hp hc hm

/-- C156: different groups share no number, and the groups a simulation of a smooth film uses are among those it draws -/
theorem C156_groups_disjoint (pos nev : ℕ) :
    (∀ q q' : ℕ × Fin nt, pos + q.1 * nt + q.2 = pos + q'.1 * nt + q'.2 → q = q') ∧
    ∀ r (j : Fin nt), r < 5 + 3 * nev → pos ≤ pos + r * nt + j ∧ pos + r * nt + j < pos + (5 + 3 * nev) * nt := by
  constructor
  · rintro ⟨r, j⟩ ⟨r', j'⟩ h
    have h' : r * nt + j = r' * nt + j' := by dsimp only at h; omega
    have hN : 0 < nt := lt_of_le_of_lt (Nat.zero_le _) j.isLt
    have h1 : (j : ℕ) = j' := by
      have := congrArg (· % nt) h'
      simpa [Nat.add_mod, Nat.mod_eq_of_lt j.isLt, Nat.mod_eq_of_lt j'.isLt] using this
    have h2 : r = r' := by
      rw [h1] at h'
      exact Nat.eq_of_mul_eq_mul_right hN (by omega)
    exact Prod.ext h2 (Fin.ext h1)
  · intro r j hr
    have : (r + 1) * nt ≤ (5 + 3 * nev) * nt := Nat.mul_le_mul_right _ hr
    rw [add_mul, one_mul] at this
    omega

/-- what the two theorems on the error have in common -/
theorem seeded_transfer {n : ℕ} {Ω : Type} [MeasurableSpace Ω] (P : Measure Ω) [IsProbabilityMeasure P] (u : ℕ → Ω → ℝ)
    (hu : UniformDraws P u) (hr : ∀ i ω, 0 ≤ u i ω ∧ u i ω < 1) {nt : ℕ} (a : Args (nt + 1)) (facet : Option (ℝ → ℝ))
    (S : Sampling (nt + 1) (n + 1)) (d : DetArgs) (H : FilmRun a S d) (hsm : a.coarse_roughness = 0) (hat : a.theta_data = none)
    (hap : a.phi_data = none) (hm : S.mu_scat_mie = none) (hfine : d.fine_roughness = 0) (hg : d.gonio = none) (hth : d.z_low < d.thickness)
    (b : Bool) (pos : ℕ) (w : Ω → World) (hw : ∀ ω, (w ω).gen b = ⟨fun i => u i ω, pos⟩) (nev : ℕ)
    (t : Ω → Trajs (nt + 1)) (w' : Ω → World) (ht : ∀ ω, simulateRng b (nev + 1) a facet S (w ω) = .ok (t ω, w' ω))
    (rt : Ω → Weights.RT (nt + 1)) (w'' : Ω → World) (hrt : ∀ ω, runFilmRng b nev a facet S d (w ω) = .ok (rt ω, w'' ω)) :
    ∃ (U : ℕ × Draw → Ω → ℝ) (a' : (nt : ℕ) → Ω → Args (nt + 1)) (S' : (nt : ℕ) → Ω → Sampling (nt + 1) (n + 1))
      (rt' : Ω → Weights.RT (nt + 1)) (t1 : Ω → Trajs 1), UniformDraws P U ∧
      StreamRun U a.theta_min a.theta_max a.phi_min a.phi_max S.p S.min_angle S.mu_scat S.mu_abs a' S' ∧
      (∀ nt ω, FilmRun (a' nt ω) (S' nt ω) d) ∧ (∀ ω, runFilm nev (a' nt ω) (S' nt ω) d = .ok (rt' ω)) ∧
      (∀ ω, simulate (nev + 1) (a' 0 ω) (S' 0 ω) = .ok (t1 ω)) ∧ (∀ ω, (rt ω).R = (rt' ω).R ∧ (rt ω).T = (rt' ω).T) ∧
      (fun ω => simPhoton nev d (t ω) 0) = fun ω => simPhoton nev d (t1 ω) 0 := by
  obtain ⟨U, a', S', hU, R, hF, hrun⟩ := seeded_run P u hu hr a facet S d H hsm hat hap hm b pos w hw nev
  obtain ⟨ω0⟩ : Nonempty Ω := by
    by_contra h
    rw [not_nonempty_iff] at h
    have := (inferInstance : IsProbabilityMeasure P).measure_univ
    rw [Set.eq_empty_of_isEmpty (Set.univ : Set Ω), measure_empty] at this
    exact zero_ne_one this
  obtain ⟨G, M, hcol⟩ := photon_function R hF hth nev ω0
  choose t1 ht1 using fun ω => simulate_facts (hF 0 ω) nev
  have hex : ∀ ω, ∃ rt', runFilm nev (a' nt ω) (S' nt ω) d = .ok rt' ∧ ((rt ω).R = rt'.R ∧ (rt ω).T = rt'.T) ∧
      simPhoton nev d (t ω) 0 = simPhoton nev d (t1 ω) 0 := by
    intro ω
    obtain ⟨s, s', v, h1, h2, h3, h4⟩ := hrun ω
    have hts : t ω = s := by
      have := (ht ω).symm.trans h1
      injection this with this
      exact congrArg Prod.fst this
    have hD := filmRun_draws H (g := ⟨fun i => u i ω, pos⟩) (fun i => hr i ω) nev
    obtain ⟨-, r1, e1, k1⟩ := run_photons hD hsm hfine hg hth h2
    obtain ⟨-, r2, e2, k2⟩ := run_photons (hF nt ω) (R.smooth nt ω) hfine hg hth h3
    have hr1 : rt ω = r1 := by
      have e := hrt ω
      unfold runFilmRng at e
      rw [h1] at e
      simp only [Bind.bind, Except.bind] at e
      unfold runFilm at e1
      rw [h2] at e1
      simp only [Bind.bind, Except.bind] at e1
      rw [e1] at e
      injection e with e
      exact (congrArg Prod.fst e).symm
    refine ⟨r2, e2, ?_, ?_⟩
    · rw [hr1]
      rw [h4] at k1
      rcases k1 with ⟨k, x, y⟩ | ⟨k, x, y⟩ <;> rcases k2 with ⟨k', x', y'⟩ | ⟨k', x', y'⟩
      · exact ⟨x.trans x'.symm, y.trans y'.symm⟩
      · exact absurd k k'
      · exact absurd k' k
      · exact ⟨x.trans x'.symm, y.trans y'.symm⟩
    · rw [hts, h4, hcol nt ω s' h3 0, hcol 0 ω (t1 ω) (ht1 ω).1 0]
      rfl
  choose rt' q1 q2 q3 using hex
  exact ⟨U, a', S', rt', t1, hU, R, hF, q1, fun ω => (ht1 ω).1, q2, funext q3⟩

/-- C156: the statistical error of a run that takes all its numbers from one generator, whose numbers are independent and uniform on [0, 1): the
error of C143, where the numbers for different photons and uses came from separate streams. -/
theorem C156_seeded_error {n : ℕ} {Ω : Type} [MeasurableSpace Ω] (P : Measure Ω) [IsProbabilityMeasure P] (u : ℕ → Ω → ℝ)
    (hu : UniformDraws P u) (hr : ∀ i ω, 0 ≤ u i ω ∧ u i ω < 1) {nt : ℕ} (a : Args (nt + 1)) (facet : Option (ℝ → ℝ))
    (S : Sampling (nt + 1) (n + 1)) (d : DetArgs) (H : FilmRun a S d) (hsm : a.coarse_roughness = 0) (hat : a.theta_data = none)
    (hap : a.phi_data = none) (hm : S.mu_scat_mie = none) (hfine : d.fine_roughness = 0) (hg : d.gonio = none) (hth : d.z_low < d.thickness)
    (b : Bool) (pos : ℕ) (w : Ω → World) (hw : ∀ ω, (w ω).gen b = ⟨fun i => u i ω, pos⟩) (nev : ℕ)
    (t : Ω → Trajs (nt + 1)) (w' : Ω → World) (ht : ∀ ω, simulateRng b (nev + 1) a facet S (w ω) = .ok (t ω, w' ω))
    (rt : Ω → Weights.RT (nt + 1)) (w'' : Ω → World) (hrt : ∀ ω, runFilmRng b nev a facet S d (w ω) = .ok (rt ω, w'' ω)) {ε : ℝ}
    (hε : 0 ≤ ε) (hK : ε < Photon.meanKnown P (fun ω => simPhoton nev d (t ω) 0)) :
    let p : Ω → Photon := fun ω => simPhoton nev d (t ω) 0
    P.real {ω | ¬ ∃ r t : ℝ, (rt ω).R = fin r ∧ (rt ω).T = fin t ∧
      |r - Photon.meanRefl P p| ≤ (5 / 2 + 2 / Photon.meanKnown P p) * ε +
        shareError (Photon.meanSeenR P p) (Photon.meanEscR P p) (ε + 1 / 10 ^ 9 / ((nt + 1 : ℕ) : ℝ)) ∧
      |t - Photon.meanTrans P p| ≤ (5 / 2 + 2 / Photon.meanKnown P p) * ε +
        shareError (Photon.meanSeenT P p) (Photon.meanEscT P p) (ε + 1 / 10 ^ 9 / ((nt + 1 : ℕ) : ℝ))} ≤
      18 * Real.exp (-2 * ((nt + 1 : ℕ) : ℝ) * ε ^ 2) := by
  obtain ⟨U, a', S', rt', t1, hU, R, hF, h1, h2, h3, h4⟩ :=
    seeded_transfer P u hu hr a facet S d H hsm hat hap hm hfine hg hth b pos w hw nev t w' ht rt w'' hrt
  rw [h4] at hK ⊢
  have h := C143_error_bound P U hU a' S' d R hF hfine hg hth nev nt rt' h1 t1 h2 hε hK
  simp only [h3]
  exact h

/-- C156: the number of trajectories needed, if all numbers come from one generator and the detector covers the hemisphere -/
theorem C156_seeded_enough {n : ℕ} {Ω : Type} [MeasurableSpace Ω] (P : Measure Ω) [IsProbabilityMeasure P] (u : ℕ → Ω → ℝ)
    (hu : UniformDraws P u) (hr : ∀ i ω, 0 ≤ u i ω ∧ u i ω < 1) {nt : ℕ} (a : Args (nt + 1)) (facet : Option (ℝ → ℝ))
    (S : Sampling (nt + 1) (n + 1)) (d : DetArgs) (H : FilmRun a S d) (hsm : a.coarse_roughness = 0) (hat : a.theta_data = none)
    (hap : a.phi_data = none) (hm : S.mu_scat_mie = none) (hfine : d.fine_roughness = 0) (hg : d.gonio = none) (hth : d.z_low < d.thickness)
    (b : Bool) (pos : ℕ) (w : Ω → World) (hw : ∀ ω, (w ω).gen b = ⟨fun i => u i ω, pos⟩) (nev : ℕ)
    (t : Ω → Trajs (nt + 1)) (w' : Ω → World) (ht : ∀ ω, simulateRng b (nev + 1) a facet S (w ω) = .ok (t ω, w' ω))
    (rt : Ω → Weights.RT (nt + 1)) (w'' : Ω → World) (hrt : ∀ ω, runFilmRng b nev a facet S d (w ω) = .ok (rt ω, w'' ω)) {ε α : ℝ}
    (hε : 0 < ε) (hK : ε < Photon.meanKnown P (fun ω => simPhoton nev d (t ω) 0)) (hdet : d.detection_angle = Real.pi / 2) (hα : 0 < α)
    (hnt : Real.log (18 / α) / (2 * ε ^ 2) ≤ ((nt + 1 : ℕ) : ℝ)) :
    let p : Ω → Photon := fun ω => simPhoton nev d (t ω) 0
    P.real {ω | ¬ ∃ r t : ℝ, (rt ω).R = fin r ∧ (rt ω).T = fin t ∧
      |r - Photon.meanRefl P p| ≤ (5 / 2 + 2 / Photon.meanKnown P p) * ε ∧
      |t - Photon.meanTrans P p| ≤ (5 / 2 + 2 / Photon.meanKnown P p) * ε} ≤ α := by
  obtain ⟨U, a', S', rt', t1, hU, R, hF, h1, h2, h3, h4⟩ :=
    seeded_transfer P u hu hr a facet S d H hsm hat hap hm hfine hg hth b pos w hw nev t w' ht rt w'' hrt
  rw [h4] at hK ⊢
  have h := C143_enough_trajectories P U hU a' S' d R hF hfine hg hth nev nt rt' h1 t1 h2 hε hK hdet hα hnt
  simp only [h3]
  exact h

/-- Non-vacuity of C156: 1000 trajectories of the absorbing film of C143, from one generator -/
example : ∃ (Ω : Type) (_ : MeasurableSpace Ω) (P : Measure Ω) (_ : IsProbabilityMeasure P) (u : ℕ → Ω → ℝ)
    (a : Args (999 + 1)) (S : Sampling (999 + 1) 3) (w : Ω → World) (t : Ω → Trajs (999 + 1)) (w' w'' : Ω → World)
    (rt : Ω → Weights.RT (999 + 1)) (ε : ℝ), UniformDraws P u ∧ (∀ i ω, 0 ≤ u i ω ∧ u i ω < 1) ∧ FilmRun a S (demoDet none) ∧
    a.coarse_roughness = 0 ∧ a.theta_data = none ∧ a.phi_data = none ∧ S.mu_scat_mie = none ∧ (demoDet none).fine_roughness = 0 ∧
    (demoDet none).gonio = none ∧ (demoDet none).z_low < (demoDet none).thickness ∧ (demoDet none).detection_angle = Real.pi / 2 ∧
    (∀ ω, (w ω).gen true = ⟨fun i => u i ω, 0⟩) ∧ (∀ ω, simulateRng true (5 + 1) a none S (w ω) = .ok (t ω, w' ω)) ∧
    (∀ ω, runFilmRng true 5 a none S (demoDet none) (w ω) = .ok (rt ω, w'' ω)) ∧ 0 < ε ∧
    ε < Photon.meanKnown P (fun ω => simPhoton 5 (demoDet none) (t ω) 0) := by
  obtain ⟨Ω, mΩ, P, u, hP, hu, hr⟩ := uniformDraws_in_range ℕ
  let a : Args (999 + 1) := ⟨1, 3 / 2, .film, 0, Real.pi / 4, none, 0, 2 * Real.pi, none, 1, none, 0, fun _ => 0, fun _ => 0, fun _ => 0,
    fun _ => 0, fun _ => 0, fun _ => 0, fun _ => 0⟩
  let S : Sampling (999 + 1) 3 :=
    { p := fun _ => 1, min_angle := 0, draw_theta := fun _ _ => 0, rand_phi := fun _ _ => 0, mu_scat := 1, mu_scat_mie := none,
      fine_roughness := 0, rand_step := fun _ _ => 0, rand_mie := fun _ => 1 / 2, mu_abs := 1 }
  have D := demo_filmRun 1 zero_le_one none
  have z : (0 : ℝ) ≤ 0 ∧ (0 : ℝ) < 1 := ⟨le_rfl, one_pos⟩
  have H : FilmRun a S (demoDet none) :=
    { nt_pos := Nat.succ_pos _, film := rfl, no_diameter := rfl, theta_len := fun l hl => (nomatch hl), phi_len := fun l hl => (nomatch hl),
      theta_range := by show (0 : ℝ) ≤ Real.pi / 4; positivity
      phi_range := by show (0 : ℝ) ≤ 2 * Real.pi; positivity
      same_medium := rfl, same_sample := rfl, medium_pos := D.medium_pos, not_denser := D.not_denser, front := D.front, back := D.back,
      particle := D.particle, matrix := D.matrix, fine := D.fine, draw_t := fun j => z, draw_p := fun j => z,
      phase := D.phase, min_angle := D.min_angle, phase_pos := D.phase_pos, rand_phi := fun i j => z, mu_scat := D.mu_scat,
      mu_mie := D.mu_mie, fine_step := D.fine_step, rand_step := fun i j => z, rand_mie := D.rand_mie, mu_abs := D.mu_abs }
  let w : Ω → World := fun ω => alone ⟨fun i => u i ω, 0⟩
  have hth : (demoDet none).z_low < (demoDet none).thickness := by norm_num [demoDet]
  obtain ⟨U, a', S', hU, R, hF, hrun⟩ := seeded_run P u hu hr a none S (demoDet none) H rfl rfl rfl rfl true 0 w (fun _ => rfl) 5
  choose t t' w' h1 h2 h3 h4 using hrun
  have hrt : ∀ ω, ∃ rt, runFilmRng true 5 a none S (demoDet none) (w ω) = .ok (rt, w' ω) := by
    intro ω
    have hD := filmRun_draws H (g := ⟨fun i => u i ω, 0⟩) (fun i => hr i ω) 5
    obtain ⟨-, r1, e1, -⟩ := run_photons hD rfl rfl rfl hth (h2 ω)
    refine ⟨r1, ?_⟩
    unfold runFilmRng
    rw [h1 ω]
    unfold runFilm at e1
    rw [h2 ω] at e1
    simp only [Bind.bind, Except.bind] at e1 ⊢
    rw [e1]
    rfl
  choose rt hrt using hrt
  obtain ⟨U, a', S', rt', t1, hU, R, hF, q1, q2, q3, q4⟩ :=
    seeded_transfer P u hu hr a none S (demoDet none) H rfl rfl rfl rfl rfl rfl hth true 0 w (fun _ => rfl) 5 t w' h1 rt w' hrt
  have hk := C137_absorbing_known P U hU a' S' (demoDet none) R hF rfl rfl hth 5 t1 q2 one_pos
    (by show -(Real.pi / 2) < 0; linarith [Real.pi_pos]) (by show Real.pi / 4 < Real.pi / 2; linarith [Real.pi_pos]) (fun x hx => (nomatch hx))
  refine ⟨Ω, mΩ, P, hP, u, a, S, w, t, w', w', rt, _, hu, hr, H, rfl, rfl, rfl, rfl, rfl, rfl, hth, rfl, fun _ => rfl, h1, hrt, half_pos hk, ?_⟩
  rw [q4]
  exact half_lt_self hk

end
end Verif.Props
