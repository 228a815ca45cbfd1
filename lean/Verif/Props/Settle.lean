import Verif.Props.Escape
import Verif.Props.Metamorphic2

/-!
# C128: events after the last exit do not change the result, and the result settles
-/

namespace Verif.Props

open MeasureTheory ProbabilityTheory Filter Topology
open Verif.Spec Verif.Traj Verif.Simulation Verif.Exits Verif.Init XF
open Verif.Geometry (XV finV ofV3)

variable {nt num : ℕ}

/-- flags of longer tables agree with those of shorter ones -/
private theorem events_prefix {n n' : ℕ} (h1 : 1 ≤ n) (h : n ≤ n') (neg pos tir : Fin n → Fin nt → Bool) (neg' pos' tir' : Fin n' → Fin nt → Bool)
    (hn : ∀ e (he : e < n) j, neg' ⟨e, he.trans_le h⟩ j = neg ⟨e, he⟩ j) (hp : ∀ e (he : e < n) j, pos' ⟨e, he.trans_le h⟩ j = pos ⟨e, he⟩ j)
    (j : Fin nt) :
    ((findEventIndices neg' pos' tir').2.2.1 j ≠ 0 → (findEventIndices neg pos tir).2.2.1 j ≠ 0) ∧
    ((findEventIndices neg pos tir).2.2.1 j = 0 → (findEventIndices neg' pos' tir').1 j = (findEventIndices neg pos tir).1 j ∧
      (findEventIndices neg' pos' tir').2.1 j = (findEventIndices neg pos tir).2.1 j ∧
      (findEventIndices neg pos tir).1 j ≤ n ∧ (findEventIndices neg pos tir).2.1 j ≤ n) := by
  have fn : ∀ m, m ≤ n → (flagged neg' j m ↔ flagged neg j m) := by
    intro m hm
    constructor
    · rintro ⟨e, he, hf⟩
      have hlt : e.val < n := by omega
      exact ⟨⟨e.val, hlt⟩, he, by rw [← hn]; exact hf⟩
    · rintro ⟨e, he, hf⟩
      exact ⟨⟨e.val, e.isLt.trans_le h⟩, he, by rw [hn _ e.isLt]; exact hf⟩
  have fp : ∀ m, m ≤ n → (flagged pos' j m ↔ flagged pos j m) := by
    intro m hm
    constructor
    · rintro ⟨e, he, hf⟩
      have hlt : e.val < n := by omega
      exact ⟨⟨e.val, hlt⟩, he, by rw [← hp]; exact hf⟩
    · rintro ⟨e, he, hf⟩
      exact ⟨⟨e.val, e.isLt.trans_le h⟩, he, by rw [hp _ e.isLt]; exact hf⟩
  have big : ∀ (T : Fin n → Fin nt → Bool) m, flagged T j m → m ≤ n := by
    rintro T m ⟨e, he, -⟩
    have := e.isLt
    omega
  obtain ⟨r1, r2, r3, -⟩ := C10_first_exit h1 neg pos tir j
  obtain ⟨s1, s2, s3, -⟩ := C10_first_exit (h1.trans h) neg' pos' tir' j
  have first : ∀ (P Q : ℕ → Prop) m, m ≤ n → (∀ k, k ≤ n → (P k ↔ Q k)) → IsFirst n Q m → IsFirst n' P m := by
    rintro P Q m hm hPQ ⟨a, b, c, d⟩
    exact ⟨a, b.trans h, (hPQ m hm).mpr c, fun k h1 h2 hk => d k h1 h2 ((hPQ k (by omega)).mp hk)⟩
  refine ⟨fun hs => r3.mpr fun m => ?_, fun hs => ?_⟩
  · exact ⟨fun hf => (s3.mp hs m).1 ((fn m (big _ m hf)).mpr hf), fun hf => (s3.mp hs m).2 ((fp m (big _ m hf)).mpr hf)⟩
  · have c' := C09_exactly_one_outcome neg' pos' tir' j
    rcases C09_exactly_one_outcome neg pos tir j with ⟨a, b, -⟩ | ⟨a, b, -⟩ | ⟨-, -, c⟩
    · obtain ⟨hf, hb⟩ := (r1 _ (Nat.one_le_iff_ne_zero.mpr a)).mp rfl
      have hm := hf.2.1
      have e1 := (s1 _ (Nat.one_le_iff_ne_zero.mpr a)).mpr ⟨first _ _ _ hm fn hf, fun k hk hk' => hb k hk ((fp k (by omega)).mp hk')⟩
      refine ⟨e1, ?_, hm, by rw [b]; omega⟩
      rw [b]
      simp only at c' a
      rcases c' with ⟨-, q, -⟩ | ⟨q, -, -⟩ | ⟨q, -, -⟩
      · exact q
      · exact absurd (e1 ▸ q) a
      · exact absurd (e1 ▸ q) a
    · obtain ⟨hf, hb⟩ := (r2 _ (Nat.one_le_iff_ne_zero.mpr b)).mp rfl
      have hm := hf.2.1
      have e1 := (s2 _ (Nat.one_le_iff_ne_zero.mpr b)).mpr ⟨first _ _ _ hm fp hf, fun k hk hk' => hb k hk ((fn k (by omega)).mp hk')⟩
      refine ⟨?_, e1, by rw [a]; omega, hm⟩
      rw [a]
      simp only at c' b
      rcases c' with ⟨-, q, -⟩ | ⟨q, -, -⟩ | ⟨-, q, -⟩
      · exact absurd (e1 ▸ q) b
      · exact q
      · exact absurd (e1 ▸ q) b
    · exact absurd (c.symm.trans hs) (by omega)

/-- a longer simulation with the same numbers has the same first rows -/
private theorem simulate_prefix {a : Args nt} {S : Sampling nt num} {nev nev' : ℕ} (h : nev ≤ nev') {t t' : Trajs nt}
    (ht : simulate (nev + 1) a S = .ok t) (ht' : simulate (nev' + 1) a S = .ok t') :
    (∀ i, i ≤ nev → t'.direction i = t.direction i) ∧ (∀ i, i ≤ nev + 1 → t'.position i = t.position i) ∧ t'.weight = t.weight ∧
    t'.kz0_rot = t.kz0_rot ∧ t'.kz0_refl = t.kz0_refl := by
  unfold simulate at ht ht'
  rcases hp : initializeTraj a with e | p0
  · rw [hp] at ht; simp only [Bind.bind, Except.bind] at ht; cases ht
  rw [hp] at ht ht'
  simp only [Bind.bind, Except.bind] at ht ht'
  rcases ha : sampleAngles1 (nev + 1) S.p S.min_angle S.draw_theta S.rand_phi with e | ang
  · rw [ha] at ht; cases ht
  rcases ha' : sampleAngles1 (nev' + 1) S.p S.min_angle S.draw_theta S.rand_phi with e | ang'
  · rw [ha'] at ht'; cases ht'
  rw [ha] at ht
  rw [ha'] at ht'
  simp only at ht ht'
  rcases hst : sampleStep nt S.mu_scat S.mu_scat_mie S.fine_roughness S.rand_step S.rand_mie with e | step
  · rw [hst] at ht; cases ht
  rw [hst] at ht ht'
  simp only [Pure.pure, Except.pure] at ht ht'
  injection ht with ht
  injection ht' with ht'
  subst ht
  subst ht'
  have hang : ang'.sintheta = ang.sintheta ∧ ang'.costheta = ang.costheta ∧ ang'.sinphi = ang.sinphi ∧ ang'.cosphi = ang.cosphi := by
    unfold sampleAngles1 at ha ha'
    dsimp only at ha ha'
    split at ha
    · split at ha'
      · injection ha with ha
        injection ha' with ha'
        subst ha
        subst ha'
        exact ⟨rfl, rfl, rfl, rfl⟩
      · cases ha'
    · cases ha
  obtain ⟨e1, e2, e3, e4⟩ := hang
  dsimp only
  rw [e1, e2, e3, e4]
  have hl := scatter_loop (fun i j => valV (p0.k0 i j)) ang.sintheta ang.costheta ang.sinphi ang.cosphi nev
  have hl' := scatter_loop (fun i j => valV (p0.k0 i j)) ang.sintheta ang.costheta ang.sinphi ang.cosphi nev'
  have hd : ∀ i, i ≤ nev → scatter (nev' + 1) (fun i j => valV (p0.k0 i j)) ang.sintheta ang.costheta ang.sinphi ang.cosphi i =
      scatter (nev + 1) (fun i j => valV (p0.k0 i j)) ang.sintheta ang.costheta ang.sinphi ang.cosphi i := by
    intro i
    induction i with
    | zero => intro _; exact hl'.1.trans hl.1.symm
    | succ i ih =>
      intro hi
      funext j
      refine (hl'.2.1 i (by omega) j).trans (Eq.trans ?_ (hl.2.1 i (by omega) j).symm)
      exact congrArg _ (congrFun (ih (by omega)) j)
  refine ⟨hd, ?_, rfl, rfl, rfl⟩
  intro i
  induction i with
  | zero => intro _; rfl
  | succ i ih =>
    intro hi
    funext j
    refine congrArg₂ V3.add (congrFun (ih (by omega)) j) ?_
    show V3.smul _ _ = V3.smul _ _
    rw [hd i (by omega)]

/-- **C128.**  Events after the last exit do not matter.  If no photon is stuck after `nev + 1` events, then simulating any larger number of
events with the same random numbers leaves no photon stuck and gives exactly the same result: the same total reflectance and transmittance
and the same share of every photon, whether all light or only that falling on a goniometer is detected.  And light is never stuck after more events if it was not stuck after fewer. -/
theorem C128_more_events {a : Args nt} {S : Sampling nt num} {d : DetArgs} {nev nev' : ℕ} (h : nev ≤ nev')
    {t t' : Trajs nt} (ht : simulate (nev + 1) a S = .ok t) (ht' : simulate (nev' + 1) a S = .ok t') :
    (∀ j, stuckEvent nev' d t' j ≠ 0 → stuckEvent nev d t j ≠ 0) ∧
    ((∀ j, stuckEvent nev d t j = 0) → calcReflTransFilm nev' d t' = calcReflTransFilm nev d t) := by
  obtain ⟨hd, hp, hw, hr1, hr2⟩ := simulate_prefix h ht ht'
  set X := findValidExitsFilm d.optics.n_tir d.n_medium d.thickness d.z_low
    (fun (e : Fin (nev + 2)) j => (t.position e j).z) (fun (e : Fin (nev + 1)) j => (t.direction e j).z) with hX
  set X' := findValidExitsFilm d.optics.n_tir d.n_medium d.thickness d.z_low
    (fun (e : Fin (nev' + 2)) j => (t'.position e j).z) (fun (e : Fin (nev' + 1)) j => (t'.direction e j).z) with hX'
  have key : ∀ e (he : e < nev + 1) j, X'.neg ⟨e, by omega⟩ j = X.neg ⟨e, he⟩ j ∧ X'.pos ⟨e, by omega⟩ j = X.pos ⟨e, he⟩ j := by
    intro e he j
    have q1 := hd e (by omega)
    have q2 := hp e (by omega)
    have q3 := hp (e + 1) (by omega)
    simp only [hX, hX', findValidExitsFilm, Fin.castSucc_mk, Fin.succ_mk, q1, q2, q3, and_self]
  have hev := fun j => events_prefix (n := nev + 1) (n' := nev' + 1) (by omega) (by omega) X.neg X.pos X.tir X'.neg X'.pos X'.tir
    (fun e he j => (key e he j).1) (fun e he j => (key e he j).2) j
  refine ⟨fun j => (hev j).1, fun h0 => ?_⟩
  have hex : ∀ j, ∃ m, (1 ≤ m ∧ m ≤ nev + 1) ∧ ((reportedEvents nev d t).1 j = m ∨ (reportedEvents nev d t).2.1 j = m) := by
    intro j
    rcases C09_exactly_one_outcome X.neg X.pos X.tir j with ⟨q, -, -⟩ | ⟨-, q, -⟩ | ⟨-, -, q⟩
    · exact ⟨_, ⟨Nat.one_le_iff_ne_zero.mpr q, ((hev j).2 (h0 j)).2.2.1⟩, Or.inl rfl⟩
    · exact ⟨_, ⟨Nat.one_le_iff_ne_zero.mpr q, ((hev j).2 (h0 j)).2.2.2⟩, Or.inr rfl⟩
    · exact absurd ((h0 j).symm.trans q) (by omega)
  choose m hm hmx using hex
  refine C99_goniometer_after_exit_irrelevant nev nev' d t t' m (fun j => ⟨(hm j).1, (hm j).2.trans (by omega)⟩) hmx ?_ ?_ ?_ hr1 hr2
  · intro j i hi
    rw [hp i (hi.trans (hm j).2)]
  · intro j i hi
    rw [hd i (by have := (hm j).2; omega)]
  · intro j i _
    rw [hw]

/-- **C128, in the limit.**  With probability one the reported result settles: from some number of events on, it does not change any more. -/
theorem C128_result_settles {n : ℕ} (p : Fin (n + 1) → ℝ) (m mu : ℝ) (d : DetArgs) {Ω : Type} [MeasurableSpace Ω]
    (P : Measure Ω) [IsProbabilityMeasure P] (U : (ℕ × Fin nt) × Fin 3 → Ω → ℝ) (hU : UniformDraws P U) (a : Args nt)
    (S : Ω → Sampling nt (n + 1)) (hS : FromDraws U p m mu S) (H : ∀ ω, FilmRun a (S ω) d) (hle : d.n_medium ≤ d.optics.n_tir)
    (hth : d.z_low < d.thickness) :
    ∀ᵐ ω ∂P, ∃ N, ∀ nev, N ≤ nev → runFilm nev a (S ω) d = runFilm N a (S ω) d := by
  choose t ht using fun (nev : ℕ) ω => simulate_facts (H ω) nev
  have hlim := (C127_warning_disappears p m mu d P U hU a S hS H hle hth t (fun nev ω => (ht nev ω).1) (fun _ _ _ => 0) (fun _ _ _ => 0)
    (fun _ _ _ => 1) (fun _ ω => by
      have := (H ω).nt_pos
      simp only [Finset.sum_const, Finset.card_univ, Fintype.card_fin, nsmul_eq_mul, mul_one]
      exact_mod_cast this)).1
  have hout : ∀ᵐ ω ∂P, ∃ nev, ∀ j, stuckEvent nev d (t nev ω) j = 0 := by
    rw [ae_iff]
    have hsub : ∀ nev, {ω | ¬ ∃ nev, ∀ j, stuckEvent nev d (t nev ω) j = 0} ⊆ {ω | ∃ j, stuckEvent nev d (t nev ω) j ≠ 0} := by
      intro nev ω hω
      by_contra h
      refine hω ⟨nev, fun j => ?_⟩
      by_contra h'
      exact h ⟨j, h'⟩
    have h0 : P.real {ω | ¬ ∃ nev, ∀ j, stuckEvent nev d (t nev ω) j = 0} ≤ 0 :=
      ge_of_tendsto' hlim fun nev => measureReal_mono (hsub nev)
    exact (measureReal_eq_zero_iff).mp (le_antisymm h0 measureReal_nonneg)
  filter_upwards [hout] with ω hω
  obtain ⟨N, hN⟩ := hω
  refine ⟨N, fun nev hnev => ?_⟩
  have := (C128_more_events hnev (ht N ω).1 (ht nev ω).1).2 hN
  unfold runFilm
  rw [(ht N ω).1, (ht nev ω).1]
  exact this

/-- Both theorems apply to a real run: there is a run of the demo film in which light leaves within some number of events, so that ten
events more change nothing. -/
example : ∃ (S : Sampling 1 3) (nev : ℕ) (t t' : Trajs 1), simulate (nev + 1) demoArgs S = .ok t ∧ simulate (nev + 10 + 1) demoArgs S = .ok t' ∧
    (∀ j, stuckEvent nev (demoDet none) t j = 0) ∧
    calcReflTransFilm (nev + 10) (demoDet none) t' = calcReflTransFilm nev (demoDet none) t := by
  obtain ⟨Ω, mΩ, P, U, hP, hU, hr⟩ := uniformDraws_in_range ((ℕ × Fin 1) × Fin 3)
  obtain ⟨S, hS, H⟩ : ∃ S : Ω → Sampling 1 3, FromDraws U (fun _ : Fin 3 => 1) 0 1 S ∧ ∀ ω, FilmRun demoArgs (S ω) (demoDet none) := by
    refine ⟨fun ω => { demoSampling 1 with
      draw_theta := fun i j => choiceIndex (probTheta (fun _ : Fin 3 => 1) 0) (U ((i, j), 0) ω)
      rand_phi := fun i j => U ((i, j), 1) ω
      rand_step := fun i j => U ((i, j), 2) ω },
      ⟨fun _ => rfl, fun _ => rfl, fun _ => rfl, fun _ _ _ => rfl, fun _ _ _ => rfl, fun _ _ _ => rfl⟩, fun ω => ?_⟩
    exact { demo_filmRun 1 zero_le_one none with
      rand_step := fun i j => hr ((i, j), 2) ω
      rand_phi := fun i j => hr ((i, j), 1) ω }
  choose t ht using fun (nev : ℕ) ω => simulate_facts (H ω) nev
  have hlim := (C127_warning_disappears _ 0 1 (demoDet none) P U hU demoArgs S hS H
    (by norm_num [demoDet, DetArgs.optics, Weights.nTir]) (by norm_num [demoDet]) t (fun nev ω => (ht nev ω).1) (fun _ _ _ => 0)
    (fun _ _ _ => 0) (fun _ _ _ => 1) (fun _ _ => by norm_num)).1
  obtain ⟨nev, hnev⟩ := (hlim.eventually (gt_mem_nhds (zero_lt_one))).exists
  have : ∃ ω, ∀ j, stuckEvent nev (demoDet none) (t nev ω) j = 0 := by
    by_contra hcon
    push Not at hcon
    have : {ω | ∃ j, stuckEvent nev (demoDet none) (t nev ω) j ≠ 0} = Set.univ := Set.eq_univ_of_forall hcon
    rw [this] at hnev
    simp at hnev
  obtain ⟨ω, hω⟩ := this
  exact ⟨_, nev, t nev ω, t (nev + 10) ω, (ht nev ω).1, (ht (nev + 10) ω).1, hω,
    (C128_more_events (Nat.le_add_right _ _) (ht nev ω).1 (ht (nev + 10) ω).1).2 hω⟩

end Verif.Props
