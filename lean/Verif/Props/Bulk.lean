import Verif.Model.Bulk
import Verif.Props.Spheres
import Verif.Props.Simulation
import Verif.Props.SphereRun

/-!
# C113–C115: from a structured sphere to a film of structured spheres
-/

namespace Verif.Props

open Verif.Spec Verif.Spheres Verif.Bulk Verif.XF Verif.Simulation Verif.SphereRun Verif.Init
open Verif (XF PyErr)
open Verif.Traj (linspace)

variable {nt : ℕ}

/-- the result of a call of `calc_scat_bulk`, without its side effect -/
noncomputable def bulkResult (kde : List ℝ × List ℝ → ℝ → ℝ) (refl trans : Fin nt → ℝ) (ri ti : Fin nt → ℕ)
    (nr ntr : Fin nt → V3) (vf diameter n_imag wl : ℝ) (kz : Option (ℕ → Fin nt → ℝ)) :=
  (calcScatBulk kde refl trans ri ti nr ntr vf diameter n_imag wl false kz).1

/-- the `refl_indices` a second call sees -/
noncomputable def bulkAfter (kde : List ℝ × List ℝ → ℝ → ℝ) (refl trans : Fin nt → ℝ) (ri ti : Fin nt → ℕ)
    (nr ntr : Fin nt → V3) (vf diameter n_imag wl : ℝ) (kz : Option (ℕ → Fin nt → ℝ)) :=
  (calcScatBulk kde refl trans ri ti nr ntr vf diameter n_imag wl false kz).2

private theorem ind_over (ri : Fin nt → ℕ) (j : Fin nt) : ind (overwritten ri j) = ind (ri j) := by
  unfold ind overwritten
  by_cases h : ri j = 0 <;> simp [h]

private theorem weights_over (refl trans : Fin nt → ℝ) (ri ti : Fin nt → ℕ) :
    weights refl trans (overwritten ri) ti = weights refl trans ri ti := by
  unfold weights
  congr 2
  funext j
  unfold weightOf
  rw [ind_over]

/-- C113, the part that holds.  A second call of `calc_scat_bulk` with the same arrays gives the same result if the exit
positions are used (`kz=None`), or if every reflected trajectory left at its first event.  In any case a second call that
succeeds gives the same scattering and absorption coefficients.  Missing: calls with exit directions, refuted below. -/
theorem C113_repeatable_partial (kde : List ℝ × List ℝ → ℝ → ℝ) (refl trans : Fin nt → ℝ) (ri ti : Fin nt → ℕ)
    (nr ntr : Fin nt → V3) (vf diameter n_imag wl : ℝ) (kz : Option (ℕ → Fin nt → ℝ)) :
    (kz = none ∨ (∀ j, ri j ≤ 1) →
      bulkResult kde refl trans (bulkAfter kde refl trans ri ti nr ntr vf diameter n_imag wl kz) ti nr ntr vf diameter n_imag wl kz =
      bulkResult kde refl trans ri ti nr ntr vf diameter n_imag wl kz) ∧
    ∀ x y, bulkResult kde refl trans ri ti nr ntr vf diameter n_imag wl kz = .ok x →
      bulkResult kde refl trans (bulkAfter kde refl trans ri ti nr ntr vf diameter n_imag wl kz) ti nr ntr vf diameter n_imag wl kz
        = .ok y → x.2 = y.2 := by
  have hafter : bulkAfter kde refl trans ri ti nr ntr vf diameter n_imag wl kz = overwritten ri := rfl
  rw [hafter]
  constructor
  · rintro (rfl | h)
    · unfold bulkResult calcScatBulk calcPdf
      have : ∀ z : Fin nt → ℝ, zKept z refl trans (overwritten ri) ti = zKept z refl trans ri ti := by
        intro z
        unfold zKept
        congr 2
        funext j
        unfold zOf
        rw [ind_over]
      simp only [pdfDataZ, this, weights_over, Bool.false_eq_true, if_false]
    · have : overwritten ri = ri := by
        funext j
        have := h j
        unfold overwritten
        split_ifs with h0
        · omega
        · rfl
      rw [this]
  · intro x y hx hy
    unfold bulkResult calcScatBulk at hx hy
    simp only at hx hy
    rcases h1 : (calcPdf kde kz (fun j => (getExitPos (nr j) (ntr j) (diameter / 2)).z) (diameter / 2) refl trans ri ti false).1 with e | q
    · rw [h1] at hx; cases hx
    rcases h2 : (calcPdf kde kz (fun j => (getExitPos (nr j) (ntr j) (diameter / 2)).z) (diameter / 2) refl trans (overwritten ri) ti
        false).1 with e | q'
    · rw [h2] at hy; cases hy
    rw [h1] at hx
    rw [h2] at hy
    injection hx with hx
    injection hy with hy
    rw [← hx, ← hy]

/-- C113 is false of the code.  With exit directions, a second call with the same arrays — as in a loop over volume fractions,
or to compare bandwidths — builds the phase function from other directions: the first call has overwritten the event numbers
of reflected trajectories by 1.  One trajectory, reflected at its second event with `kz = -1` there and `kz = 1` at its first
event: the first call uses nu = 0, the second nu = 1. -/
theorem C113_repeatable_refuted :
    let ri : Fin 1 → ℕ := fun _ => 2
    let kz : ℕ → Fin 1 → ℝ := fun e _ => if e = 0 then 1 else -1
    pdfDataKz kz (fun _ => 1) (fun _ => 0) ri (fun _ => 0) = .ok (some ([-0, 0, -0 + 2], [1, 1, 1])) ∧
    pdfDataKz kz (fun _ => 1) (fun _ => 0)
      (bulkAfter (fun _ _ => 1) (fun _ => 1) (fun _ => 0) ri (fun _ => 0) (fun _ => V3.zero) (fun _ => V3.zero) 1 1 0 1 (some kz))
      (fun _ => 0) = .ok (some ([-1, 1, -1 + 2], [1, 1, 1])) ∧
    ∃ kde : List ℝ × List ℝ → ℝ → ℝ, (∀ x v, 0 < kde x v) ∧
      bulkResult kde (fun _ => 1) (fun _ => 0)
        (bulkAfter kde (fun _ => 1) (fun _ => 0) ri (fun _ => 0) (fun _ => V3.zero) (fun _ => V3.zero) 1 1 0 1 (some kz))
        (fun _ => 0) (fun _ => V3.zero) (fun _ => V3.zero) 1 1 0 1 (some kz) ≠
      bulkResult kde (fun _ => 1) (fun _ => 0) ri (fun _ => 0) (fun _ => V3.zero) (fun _ => V3.zero) 1 1 0 1 (some kz) := by
  intro ri kz
  have hw : ∀ r : Fin 1 → ℕ, r 0 ≠ 0 → weights (fun _ : Fin 1 => (1 : ℝ)) (fun _ => 0) r (fun _ => 0) = [1] := by
    intro r hr
    have hf : List.finRange 1 = [0] := rfl
    simp [weights, hf, weightOf, ind, hr, transScat]
  have hn1 : nuOf 1 = 1 := by unfold nuOf; rw [Real.cos_arccos] <;> norm_num
  have hn0 : nuOf (-1) = 0 := by unfold nuOf; rw [Real.cos_arccos] <;> norm_num
  have h1 : pdfDataKz kz (fun _ => 1) (fun _ => 0) ri (fun _ => 0) = .ok (some ([-0, 0, -0 + 2], [1, 1, 1])) := by
    unfold pdfDataKz
    rw [hw ri (by simp [ri])]
    have : kzKept kz ri (fun _ => 0) = [-1] := by
      have hf : List.finRange 1 = [0] := rfl
      simp [kzKept, hf, kzOf, kz, ri, transScat]
    rw [this]
    simp [kdeData, hn0]
  have h2 : pdfDataKz kz (fun _ => 1) (fun _ => 0) (overwritten ri) (fun _ => 0) = .ok (some ([-1, 1, -1 + 2], [1, 1, 1])) := by
    unfold pdfDataKz
    rw [hw _ (by simp [overwritten, ri])]
    have : kzKept kz (overwritten ri) (fun _ => 0) = [1] := by
      have hf : List.finRange 1 = [0] := rfl
      simp [kzKept, hf, kzOf, kz, ri, transScat, overwritten]
    rw [this]
    simp [kdeData, hn1]
  refine ⟨h1, h2, fun x v => Real.exp (x.1.headI * v), fun x v => Real.exp_pos _, ?_⟩
  intro hc
  have e1 : ∀ kde, bulkResult kde (fun _ => 1) (fun _ => 0) ri (fun _ => 0) (fun _ => V3.zero) (fun _ => V3.zero) 1 1 0 1 (some kz) =
      .ok (some (pdfArray (kde ([-0, 0, -0 + 2], [1, 1, 1]))), calcMuScatAbs (fun _ : Fin 1 => 1) (fun _ => 0) (fun _ => 0) 1 (1 / 2) 0 1) := by
    intro kde
    simp only [bulkResult, calcScatBulk, calcPdf, h1, Bool.false_eq_true, if_false]
    rfl
  have e2 : ∀ kde, bulkResult kde (fun _ => 1) (fun _ => 0) (overwritten ri) (fun _ => 0) (fun _ => V3.zero) (fun _ => V3.zero) 1 1 0 1 (some kz) =
      .ok (some (pdfArray (kde ([-1, 1, -1 + 2], [1, 1, 1]))), calcMuScatAbs (fun _ : Fin 1 => 1) (fun _ => 0) (fun _ => 0) 1 (1 / 2) 0 1) := by
    intro kde
    simp only [bulkResult, calcScatBulk, calcPdf, h2, Bool.false_eq_true, if_false]
    rfl
  have hc' := (e2 _).symm.trans (hc.trans (e1 _))
  injection hc' with hc'
  have hp := congrArg (fun q => q.1) hc'
  simp only [Option.some.injEq] at hp
  -- the first phase function is flat, the second is not
  have hA : ∀ i : Fin 200, pdfArray (fun v : ℝ => Real.exp (([-0, 0, -0 + 2] : List ℝ).headI * v)) i = fin (1 / 200) := by
    intro i
    unfold pdfArray
    simp only [List.headI, neg_zero, zero_mul, Real.exp_zero, Finset.sum_const, Finset.card_univ, Fintype.card_fin, nsmul_eq_mul, mul_one]
    rw [fin_div _ (by norm_num)]
    norm_num
  obtain ⟨p, hp1, -, -, hp4⟩ := C83_phase_function_normalised_partial (fun v : ℝ => Real.exp (([-1, 1, -1 + 2] : List ℝ).headI * v))
    (fun v => Real.exp_pos _)
  have hflat : ∀ i, p i = 1 / 200 := by
    intro i
    have := congrFun hp i
    rw [hA, hp1, fin_inj] at this
    exact this
  have h3 := hp4 0 199
  rw [hflat, hflat] at h3
  have h4 : ((-1 : ℝ) * ((Real.cos (linspace 0.01 Real.pi 200 (199 : Fin 200)) + 1) / 2)) =
      -1 * ((Real.cos (linspace 0.01 Real.pi 200 (0 : Fin 200)) + 1) / 2) :=
    Real.exp_injective (mul_left_cancel₀ (by norm_num : (1 / 200 : ℝ) ≠ 0) h3)
  have h5 : Real.cos (linspace 0.01 Real.pi 200 (199 : Fin 200)) = Real.cos (linspace 0.01 Real.pi 200 (0 : Fin 200)) := by linarith
  have h6 : linspace 0.01 Real.pi 200 (199 : Fin 200) = Real.pi := by
    unfold linspace
    norm_num
    have : (((199 : Fin 200) : ℕ) : ℝ) = 199 := by norm_num
    ring_nf
  have h7 : linspace 0.01 Real.pi 200 (0 : Fin 200) = 0.01 := by
    unfold linspace
    norm_num
  rw [h6, h7, Real.cos_pi] at h5
  have h8 : 0 < Real.cos 0.01 := Real.cos_pos_of_mem_Ioo ⟨by linarith [Real.pi_pos], by linarith [Real.two_le_pi]⟩
  linarith

/-! ## C114 -/

/-- C114.  **A complete multiscale simulation delivers physical fractions.**  A structured sphere is simulated (in the
documented domain); its results go through `calc_scat_bulk`, with exit positions or directions, any volume fraction up to 1 and
any density estimate that is positive; a film is then simulated with the phase function and coefficients so obtained.  If
`calc_scat_bulk` returns a phase function and some light left the sphere after scattering, then the phase function is a list of
200 positive numbers with sum 1, the coefficients are physical, and the film simulation runs without an error; its reflectance
and transmittance are both NaN, or non-negative numbers with sum at most 1 — for all random numbers on both scales. -/
theorem C114_multiscale {num nt' : ℕ} {a : Args nt} {S : Sampling nt num} {d : SphereArgs} {draws : ℕ → Draws nt num}
    (H : SphereDomain a S d draws) (nev : ℕ) :
    ∃ rt, ∃ fr ft : Fin nt → ℝ, runSphere nev a S d draws = .ok rt ∧
      (∀ j, rt.reflPer j = fin (fr j) ∧ rt.transPer j = fin (ft j)) ∧
      ∀ (kde : List ℝ × List ℝ → ℝ → ℝ) (_ : ∀ x v, 0 < kde x v) (ri ti : Fin nt → ℕ) (nr ntr : Fin nt → V3)
        (vf n_imag wl : ℝ) (_ : 0 < vf ∧ vf ≤ 1) (_ : 0 ≤ n_imag) (_ : 0 < wl) (kz : Option (ℕ → Fin nt → ℝ))
        (p : Fin 200 → XF) (ms ma : ℝ),
        bulkResult kde fr ft ri ti nr ntr vf d.thickness n_imag wl kz = .ok (some p, ms, ma) →
        (∃ j, 0 < fr j ∨ (0 < ft j ∧ ti j ≠ 1)) →
        (∃ q : Fin 200 → ℝ, (∀ i, p i = fin (q i)) ∧ (∀ i, 0 < q i) ∧ ∑ i, q i = 1) ∧ 0 < ms ∧ 0 ≤ ma ∧
        ∀ (a' : Args nt') (S0 : Sampling nt' 200) (d' : DetArgs) (_ : FilmRun a' S0 d') (nev' : ℕ),
          ∃ rt', runFilm nev' a' { S0 with p := fun i => val (p i), min_angle := 1 / 100, mu_scat := ms, mu_abs := ma } d' = .ok rt' ∧
            ((rt'.R = nan ∧ rt'.T = nan) ∨ ∃ R T : ℝ, rt'.R = fin R ∧ rt'.T = fin T ∧ 0 ≤ R ∧ 0 ≤ T ∧ R + T ≤ 1) := by
  obtain ⟨rt, fr, ft, hrun, hper, -, -, hle⟩ := C100_sphere_per_traj H nev
  refine ⟨rt, fr, ft, hrun, fun j => ⟨(hper j).1, (hper j).2.1⟩, ?_⟩
  intro kde hkde ri ti nr ntr vf n_imag wl hvf hni hwl kz p ms ma hb hlight
  have hr : 0 < d.thickness / 2 := by have := H.diameter_pos; linarith
  obtain ⟨data, hp, hms, hma⟩ : ∃ data, p = pdfArray (kde data) ∧ ms = (calcMuScatAbs fr ft ti vf (d.thickness / 2) n_imag wl).1 ∧
      ma = (calcMuScatAbs fr ft ti vf (d.thickness / 2) n_imag wl).2 := by
    unfold bulkResult calcScatBulk calcPdf at hb
    simp only [Bool.false_eq_true, if_false] at hb
    cases kz with
    | none =>
      simp only at hb
      rcases h1 : pdfDataZ (fun j => (getExitPos (nr j) (ntr j) (d.thickness / 2)).z) (d.thickness / 2) fr ft ri ti with e | o
      · rw [h1] at hb; cases hb
      rw [h1] at hb
      injection hb with hb
      cases o with
      | none => cases hb
      | some x =>
        simp only [Prod.mk.injEq] at hb
        obtain ⟨h1, h2, h3⟩ := hb
        injection h1 with h1
        exact ⟨x, h1.symm, h2.symm, h3.symm⟩
    | some k =>
      simp only at hb
      rcases h1 : pdfDataKz k fr ft ri ti with e | o
      · rw [h1] at hb; cases hb
      rw [h1] at hb
      injection hb with hb
      cases o with
      | none => cases hb
      | some x =>
        simp only [Prod.mk.injEq] at hb
        obtain ⟨h1, h2, h3⟩ := hb
        injection h1 with h1
        exact ⟨x, h1.symm, h2.symm, h3.symm⟩
  obtain ⟨-, hma0, -⟩ := C64_mu_partial fr ft ti vf (d.thickness / 2) n_imag wl hr hvf.1.le hvf.2 hni hwl
    (fun j => (hper j).2.2.1) (fun j => (hper j).2.2.2) hle
  have hms0 : 0 < ms := by
    rw [hms]
    unfold calcMuScatAbs Spheres.numberDensity
    simp only
    have hsum : 0 < ∑ j, (fr j + if ti j = 1 then 0 else ft j) := by
      obtain ⟨j, hj⟩ := hlight
      refine Finset.sum_pos' (fun i _ => ?_) ⟨j, Finset.mem_univ j, ?_⟩
      · have h1 := (hper i).2.2.1; have h2 := (hper i).2.2.2
        split_ifs <;> linarith
      · have h1 := (hper j).2.2.1; have h2 := (hper j).2.2.2
        rcases hj with h | ⟨h, h'⟩
        · split_ifs <;> linarith
        · rw [if_neg h']; linarith
    have hvp := hvf.1
    have := Real.pi_pos
    positivity
  have hma0' : 0 ≤ ma := hma ▸ hma0
  obtain ⟨q, hq, hq0, hq1, -⟩ := C83_phase_function_normalised_partial (kde data) (hkde data)
  have hpq : ∀ i, p i = fin (q i) := fun i => by rw [hp]; exact hq i
  refine ⟨⟨q, hpq, hq0, hq1⟩, hms0, hma0', ?_⟩
  intro a' S0 d' H' nev'
  have hval : (fun i => val (p i)) = q := by funext i; rw [hpq]; rfl
  rw [hval]
  have hpp : 0 < ∑ i, solidWeight q (1 / 100) i := by
    have h2 := Real.two_le_pi
    refine Finset.sum_pos' (fun i _ => ?_) ⟨0, Finset.mem_univ _, ?_⟩
    · unfold solidWeight
      refine mul_nonneg (hq0 i).le (Real.sin_nonneg_of_nonneg_of_le_pi ?_ ?_)
      · unfold linspace
        have : (0:ℝ) ≤ (i : ℕ) := Nat.cast_nonneg _
        norm_num
        have : 0 ≤ ((i : ℕ) : ℝ) * ((Real.pi - 1 / 100) / 199) := mul_nonneg this (by linarith)
        linarith
      · unfold linspace
        have : ((i : ℕ) : ℝ) ≤ 199 := by have := i.2; exact_mod_cast (by omega : (i : ℕ) ≤ 199)
        norm_num
        have : ((i : ℕ) : ℝ) * ((Real.pi - 1 / 100) / 199) ≤ 199 * ((Real.pi - 1 / 100) / 199) :=
          mul_le_mul_of_nonneg_right this (by linarith)
        linarith
    · unfold solidWeight
      refine mul_pos (hq0 0) (Real.sin_pos_of_pos_of_lt_pi ?_ ?_) <;> unfold linspace <;> norm_num
      linarith
  have H2 : FilmRun a' { S0 with p := q, min_angle := 1 / 100, mu_scat := ms, mu_abs := ma } d' := { H' with
    phase := fun i => (hq0 i).le
    min_angle := ⟨by norm_num, by show (1 : ℝ) / 100 ≤ _; linarith [Real.two_le_pi]⟩
    phase_pos := hpp
    mu_scat := hms0
    mu_abs := hma0' }
  exact C95_film_run_fractions H2 nev'

/-- Non-vacuity of C114: the demonstration sphere of C100; its light, leaving at the second event, gives a phase function. -/
example : ∃ (rt : Weights.RT 1) (fr ft : Fin 1 → ℝ) (ri ti : Fin 1 → ℕ) (p : Fin 200 → XF) (ms ma : ℝ),
    runSphere 3 ⟨1, 3 / 2, .sphere, 0, 0, none, 0, 0, none, 1, some 2, 0, fun _ => 0, fun _ => 0, fun _ => 0, fun _ => 0,
      fun _ => 1 / 2, fun _ => 0, fun _ => 0⟩ (demoSampling 0) ⟨1, 3 / 2, 2, none, none, Real.pi / 2, 0, none, none, true, 20, 1 / 100⟩
      (fun _ => ⟨fun _ _ => 1, fun _ _ => 0, fun _ _ => 1 / 2, fun _ => 1 / 2⟩) = .ok rt ∧
    (∀ j, rt.reflPer j = fin (fr j) ∧ rt.transPer j = fin (ft j)) ∧
    bulkResult (fun _ _ => 1) fr ft ri ti (fun _ => V3.zero) (fun _ => V3.zero) (1 / 2) 2 0 1 (some fun _ _ => 1) = .ok (some p, ms, ma) ∧
    ∃ j, 0 < fr j ∨ (0 < ft j ∧ ti j ≠ 1) := by
  have H := demo_sphereRun 0 le_rfl
  obtain ⟨rt, fr, ft, hrun, hper, hR, hT, -⟩ := C100_sphere_per_traj H 3
  obtain ⟨rt', R, T, hrun', hR', hT', -, -, hsum⟩ := C100_sphere_run_lossless H (nev := 3) (by norm_num) rfl rfl (Or.inl rfl)
  rw [hrun] at hrun'
  injection hrun' with h
  subst h
  rw [hR, fin_inj] at hR'
  rw [hT, fin_inj] at hT'
  simp only [Finset.univ_unique, Fin.default_eq_zero, Finset.sum_singleton] at hR' hT'
  have h0 := hper 0
  have hf : List.finRange 1 = [0] := rfl
  have key : ∀ (ri ti : Fin 1 → ℕ) (w : ℝ), w ≠ 0 → weightOf fr ft ri ti 0 = w → kzOf (fun _ _ => 1) ri ti 0 = 1 →
      ∃ p ms ma, bulkResult (fun _ _ => 1) fr ft ri ti (fun _ => V3.zero) (fun _ => V3.zero) (1 / 2) 2 0 1 (some fun _ _ => 1) =
        .ok (some p, ms, ma) := by
    intro ri ti w hw h1 h2
    have hd : pdfDataKz (fun _ _ => 1) fr ft ri ti = kdeData [nuOf 1] [w] := by
      unfold pdfDataKz kzKept weights
      simp [hf, h1, h2, hw]
    refine ⟨pdfArray (fun _ => 1), (calcMuScatAbs fr ft ti (1 / 2) (2 / 2) 0 1).1, (calcMuScatAbs fr ft ti (1 / 2) (2 / 2) 0 1).2, ?_⟩
    simp only [bulkResult, calcScatBulk, calcPdf, hd, Bool.false_eq_true, if_false, kdeData, reduceCtorEq, List.length_singleton, if_true]
    rfl
  by_cases hpos : 0 < fr 0
  · obtain ⟨p, ms, ma, hb⟩ := key (fun _ => 2) (fun _ => 0) (fr 0) hpos.ne' (by simp [weightOf, ind, transScat])
      (by simp [kzOf, transScat])
    exact ⟨rt, fr, ft, _, _, p, ms, ma, hrun, fun j => ⟨(hper j).1, (hper j).2.1⟩, hb, 0, Or.inl hpos⟩
  · have hft : 0 < ft 0 := by
      have : fr 0 = 0 := le_antisymm (not_lt.mp hpos) h0.2.2.1
      linarith
    obtain ⟨p, ms, ma, hb⟩ := key (fun _ => 0) (fun _ => 2) (ft 0) hft.ne' (by simp [weightOf, ind, transScat])
      (by simp [kzOf, transScat])
    exact ⟨rt, fr, ft, _, _, p, ms, ma, hrun, fun j => ⟨(hper j).1, (hper j).2.1⟩, hb, 0, Or.inr ⟨hft, by norm_num⟩⟩

/-! ## C115 -/

/-- C115 is false of the code: `calc_pdf`, and with it `calc_scat_bulk`, fails for every input when the documented option
`phi_dependent=True` is used. -/
theorem C115_phi_dependent_refuted (kde : List ℝ × List ℝ → ℝ → ℝ) (refl trans : Fin nt → ℝ) (ri ti : Fin nt → ℕ)
    (nr ntr : Fin nt → V3) (vf diameter n_imag wl : ℝ) (kz : Option (ℕ → Fin nt → ℝ)) :
    ∃ e, (calcScatBulk kde refl trans ri ti nr ntr vf diameter n_imag wl true kz).1 = .error e := by
  unfold calcScatBulk calcPdf
  simp only [if_true]
  split_ifs
  · exact ⟨_, rfl⟩
  · exact ⟨_, rfl⟩

end Verif.Props
