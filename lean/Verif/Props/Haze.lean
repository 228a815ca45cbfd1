import Verif.Model.Haze
import Verif.Props.ClearFilm
import Verif.Props.Geometry3
import Mathlib.Analysis.Complex.ExponentialBounds
import Mathlib.Analysis.Real.Pi.Bounds

/-!
# C151: haze and the angle outside the film
-/

namespace Verif.Props
noncomputable section
open Classical Verif.Spec Verif.Root Verif.Fresnel Verif.Exits Verif.Weights _root_.Verif.XF
open Verif.Simulation Verif.Traj Verif.Init Verif.Geometry
open Verif (XF PyErr)

variable {nt num : ℕ}

/-- Trajectory `j` leaves through the far face (at the event that `calc_refl_trans` reports) and, outside, travels at an angle below `cut`
to the normal. -/
def LeavesForward (nm ns cut : ℝ) (nev : ℕ) (t : Trajs nt) (ti : Fin nt → ℕ) (j : Fin nt) : Prop :=
  ∃ e ≤ nev, ti j = e + 1 ∧ ns * Real.sin (Real.arccos |(t.direction e j).z|) ≤ nm ∧
    Real.arcsin (ns * Real.sin (Real.arccos |(t.direction e j).z|) / nm) < cut

/-- Haze by its definition: the part of the transmitted light that travels, behind the film, at an angle of `cut` or more to the normal. -/
def trueHaze (nm ns cut : ℝ) (nev : ℕ) (t : Trajs nt) (ti : Fin nt → ℕ) (light : Fin nt → ℝ) (T : ℝ) : ℝ :=
  (T - ∑ j, if LeavesForward nm ns cut nev t ti j then light j else 0) / T

theorem run_light {a : Args nt} {S : Sampling nt num} {d : DetArgs} (H : FilmRun a S d) {nev : ℕ} {t : Trajs nt}
    (ht : simulate (nev + 1) a S = .ok t) {rt : RT nt} (hrt : Simulation.calcReflTransFilm nev d t = .ok rt) {T : ℝ} (hT : rt.T = fin T) :
    ∃ f : Fin nt → ℝ, (∀ j, rt.transPer j = fin (f j) ∧ 0 ≤ f j) ∧ T = ∑ j, f j := by
  obtain ⟨t', ht', h1, h2, _, _, _, _, hr, hr1, _⟩ := simulate_facts H nev
  rw [ht] at ht'
  injection ht' with ht'
  subst ht'
  obtain ⟨det, filter, hf, _, heq⟩ := gonio_eq nev d t
  have hw := heq t.weight
  rw [show ({ t with weight := t.weight } : Trajs nt) = t from rfl, hrt, film_call_eq _ _ _ _ _ _ _ _ _ _ hr] at hw
  have HF := filmOK_of H h1 h2 hr1 (filter := if det then filter else id) (fun f j => by
    split
    · exact hf f j
    · exact Or.inl rfl)
  have key : ∀ rt' : RT nt, rt' = rt → rt'.T = nan → False := by
    intro rt' h h'
    rw [h, hT] at h'
    exact (nomatch h')
  rcases film_cases d.thickness d.z_low (fun (i : Fin (nev + 2)) j => (t.position i j).z) t.kz0_refl HF det with
    ⟨-, r, h, -, hn⟩ | ⟨i, hi, -, hg, ⟨-, r, h, -, hn⟩ | ⟨-, r, h, -, hTr, -, hper⟩⟩
  · rw [h] at hw; injection hw with hw; exact (key r hw.symm hn).elim
  · rw [h] at hw; injection hw with hw; exact (key r hw.symm hn).elim
  · rw [h] at hw
    injection hw with hw
    subst hw
    refine ⟨_, fun j => ⟨hper j, ?_⟩, ?_⟩
    · apply div_nonneg _ (Nat.cast_nonneg _)
      have := mul_nonneg (hg.et0 j) (hg.tdf0 d.optics.n_sample d.optics.n_medium d.optics.detection_angle)
      have := hg.dt0 d.optics.n_sample d.optics.n_medium d.optics.detection_angle j
      linarith
    · rw [hT, fin_inj] at hTr
      exact hTr

theorem unit_z {v : V3} (h : v.normSq = 1) : |v.z| ≤ 1 := by
  have h' : v.x * v.x + v.y * v.y + v.z * v.z = 1 := h
  rw [abs_le]
  constructor <;> nlinarith [mul_self_nonneg v.x, mul_self_nonneg v.y]

/-- the events reported are events of the run -/
theorem transEvents_le (nev : ℕ) (d : DetArgs) (t : Trajs nt) (j : Fin nt) : transEvents nev d t j ≤ nev + 1 := by
  have key : ∀ (neg pos : Fin (nev + 1) → Fin nt → Bool), transIndices neg pos j ≤ nev + 1 := by
    intro neg pos
    unfold transIndices
    dsimp only
    exact (Nat.mul_le_mul (firstEvent_le pos j) (Bool.toNat_le _)).trans (by simp)
  exact key _ _

/-- C151, what holds.  For every complete film run whose transmittance is a positive number, `calc_haze` returns a fraction; it is the haze
for a larger cutoff outside, `cut'` with `n_medium sin cut' = n_sample sin cut`; so it never exceeds the haze for the cutoff
given, and is equal to it if the film has the index of the medium. -/
theorem C151_haze_partial {a : Args nt} {S : Sampling nt num} {d : DetArgs} (H : FilmRun a S d) {nev : ℕ} {t : Trajs nt}
    (ht : simulate (nev + 1) a S = .ok t) {cut : ℝ} (hc0 : 0 < cut) (hc1 : cut ≤ Real.pi / 2) {rt : RT nt} {haze : XF}
    (hrt : runHaze nev a S d cut = .ok (rt, haze)) {T : ℝ} (hT : rt.T = fin T) (hpos : 0 < T) :
    ∃ (h : ℝ) (f : Fin nt → ℝ), haze = fin h ∧ IsFraction h ∧ (∀ j, rt.transPer j = fin (f j)) ∧
      h ≤ trueHaze d.n_medium d.n_sample cut nev t (transEvents nev d t) f T ∧
      (d.n_medium = d.n_sample → h = trueHaze d.n_medium d.n_sample cut nev t (transEvents nev d t) f T) ∧
      ∀ cut', 0 < cut' → cut' ≤ Real.pi / 2 → d.n_medium * Real.sin cut' = d.n_sample * Real.sin cut →
        h = trueHaze d.n_medium d.n_sample cut' nev t (transEvents nev d t) f T := by
  have hm := H.medium_pos
  have hs : 0 < d.n_sample := lt_of_lt_of_le hm H.not_denser
  obtain ⟨t', ht', h1, -⟩ := simulate_facts H nev
  rw [ht] at ht'
  injection ht' with ht'
  subst ht'
  unfold runHaze at hrt
  simp only [ht, bind, Except.bind, pure, Except.pure] at hrt
  rcases hr : Simulation.calcReflTransFilm nev d t with e | r
  · rw [hr] at hrt; cases hrt
  rw [hr] at hrt
  simp only [Except.ok.injEq, Prod.mk.injEq] at hrt
  obtain ⟨e1, e2⟩ := hrt
  subst e1
  obtain ⟨f, hf, hsum⟩ := run_light H ht hr hT
  have hk : ∀ (e : Fin (nev + 1)) j, |(t.direction e j).z| ≤ 1 := fun e j => unit_z (h1 e j e.isLt)
  have hval : ∀ x : ℝ, val (fin x) = x := fun _ => rfl
  have hfv : (fun j => val (r.transPer j)) = f := by funext j; rw [(hf j).1, hval]
  rw [hT, hval, hfv] at e2
  obtain ⟨h, hh, hfr, -⟩ := C28_haze_fraction _ hk f (fun j => (hf j).2) hpos hsum.symm (transEvents nev d t) cut
  rw [hh] at e2
  have he := hh
  rw [haze_eq _ hk f T hpos, fin_inj] at he
  -- angles of the trajectories
  have hang : ∀ (c : ℝ) (e : ℕ) j, e ≤ nev → 0 ≤ Real.arccos |(t.direction e j).z| ∧ Real.arccos |(t.direction e j).z| ≤ Real.pi / 2 :=
    fun c e j _ => ⟨Real.arccos_nonneg _, by rw [Real.arccos_le_pi_div_two]; exact abs_nonneg _⟩
  have hmono : ∀ x y : ℝ, 0 ≤ x → x ≤ Real.pi / 2 → 0 ≤ y → y ≤ Real.pi / 2 → (x < y ↔ Real.sin x < Real.sin y) := by
    intro x y hx hx' hy hy'
    constructor
    · intro hxy
      exact Real.sin_lt_sin_of_lt_of_le_pi_div_two (by linarith) hy' hxy
    · intro hxy
      by_contra hle
      push Not at hle
      exact absurd (Real.sin_le_sin_of_le_of_le_pi_div_two (by linarith) hx' hle) (not_le.mpr hxy)
  have hout : ∀ (x c : ℝ), 0 ≤ Real.sin x → 0 < c → c ≤ Real.pi / 2 →
      ((d.n_sample * Real.sin x ≤ d.n_medium ∧ Real.arcsin (d.n_sample * Real.sin x / d.n_medium) < c) ↔
        d.n_sample * Real.sin x < d.n_medium * Real.sin c) := by
    intro x c hx hc hc'
    have hsc : Real.sin c ≤ 1 := Real.sin_le_one c
    have h0 : 0 ≤ d.n_sample * Real.sin x / d.n_medium := by positivity
    constructor
    · rintro ⟨a1, a2⟩
      have h1' : d.n_sample * Real.sin x / d.n_medium ≤ 1 := by rw [div_le_one hm]; exact a1
      have := (hmono _ _ (Real.arcsin_nonneg.mpr h0) (Real.arcsin_le_pi_div_two _) hc.le hc').mp a2
      rw [Real.sin_arcsin (by linarith) h1', div_lt_iff₀ hm] at this
      linarith
    · intro a1
      have a2 : d.n_sample * Real.sin x ≤ d.n_medium := by nlinarith
      have h1' : d.n_sample * Real.sin x / d.n_medium ≤ 1 := by rw [div_le_one hm]; exact a2
      refine ⟨a2, (hmono _ _ (Real.arcsin_nonneg.mpr h0) (Real.arcsin_le_pi_div_two _) hc.le hc').mpr ?_⟩
      rw [Real.sin_arcsin (by linarith) h1', div_lt_iff₀ hm]
      linarith
  have hti := transEvents_le nev d t
  -- who is counted as leaving forwards by the code
  have hcode : ∀ j, forwardAngle (fun (i : Fin (nev + 1)) j => (t.direction i j).z) (transEvents nev d t) j < cut ↔
      ∃ e ≤ nev, transEvents nev d t j = e + 1 ∧ Real.sin (Real.arccos |(t.direction e j).z|) < Real.sin cut := by
    intro j
    unfold forwardAngle
    by_cases h0 : 0 < transEvents nev d t j
    · have hlt : transEvents nev d t j - 1 < nev + 1 := by have := hti j; omega
      rw [dif_pos ⟨h0, hlt⟩]
      have ha := hang 0 (transEvents nev d t j - 1) j (by omega)
      rw [hmono _ _ ha.1 ha.2 hc0.le hc1]
      constructor
      · intro h'
        exact ⟨_, by omega, by omega, h'⟩
      · rintro ⟨e, -, he', h'⟩
        rw [he']
        exact h'
    · rw [dif_neg (fun h' => h0 h'.1)]
      constructor
      · intro h'; linarith
      · rintro ⟨e, -, he', -⟩; omega
  have hspec : ∀ c, 0 < c → c ≤ Real.pi / 2 → ∀ j, LeavesForward d.n_medium d.n_sample c nev t (transEvents nev d t) j ↔
      ∃ e ≤ nev, transEvents nev d t j = e + 1 ∧
        d.n_sample * Real.sin (Real.arccos |(t.direction e j).z|) < d.n_medium * Real.sin c := by
    intro c hc hc' j
    unfold LeavesForward
    constructor
    · rintro ⟨e, a1, a2, a3⟩
      exact ⟨e, a1, a2, (hout _ c (Real.sin_nonneg_of_nonneg_of_le_pi (Real.arccos_nonneg _) (Real.arccos_le_pi _)) hc hc').mp a3⟩
    · rintro ⟨e, a1, a2, a3⟩
      exact ⟨e, a1, a2, (hout _ c (Real.sin_nonneg_of_nonneg_of_le_pi (Real.arccos_nonneg _) (Real.arccos_le_pi _)) hc hc').mpr a3⟩
  have hsin : ∀ cut', d.n_medium * Real.sin cut' = d.n_sample * Real.sin cut → 0 < cut' → cut' ≤ Real.pi / 2 →
      h = trueHaze d.n_medium d.n_sample cut' nev t (transEvents nev d t) f T := by
    intro cut' hcut h0 h1'
    rw [← he]
    unfold trueHaze
    congr 2
    apply Finset.sum_congr rfl
    intro j _
    have : forwardAngle (fun (i : Fin (nev + 1)) j => (t.direction i j).z) (transEvents nev d t) j < cut ↔
        LeavesForward d.n_medium d.n_sample cut' nev t (transEvents nev d t) j := by
      rw [hcode, hspec cut' h0 h1']
      simp only [hcut, mul_lt_mul_iff_right₀ hs]
    by_cases h' : LeavesForward d.n_medium d.n_sample cut' nev t (transEvents nev d t) j
    · rw [if_pos h', if_pos (this.mpr h')]
    · rw [if_neg h', if_neg (fun h'' => h' (this.mp h''))]
  refine ⟨h, f, e2.symm, hfr, fun j => (hf j).1, ?_, fun heq => hsin cut (by rw [heq]) hc0 hc1, fun cut' a1 a2 a3 => hsin cut' a3 a1 a2⟩
  rw [← he]
  unfold trueHaze
  apply div_le_div_of_nonneg_right _ hpos.le
  apply sub_le_sub_left
  apply Finset.sum_le_sum
  intro j _
  by_cases h' : LeavesForward d.n_medium d.n_sample cut nev t (transEvents nev d t) j
  · rw [if_pos h', if_pos]
    rw [hcode]
    obtain ⟨e, a1, a2, a3⟩ := (hspec cut hc0 hc1 j).mp h'
    refine ⟨e, a1, a2, ?_⟩
    have hsc : 0 ≤ Real.sin cut := Real.sin_nonneg_of_nonneg_of_le_pi hc0.le (by linarith)
    have hle := H.not_denser
    have : d.n_sample * Real.sin (Real.arccos |(t.direction e j).z|) < d.n_sample * Real.sin cut := by nlinarith
    exact lt_of_mul_lt_mul_left this hs.le
  · rw [if_neg h']
    split
    · exact (hf j).2
    · exact le_rfl

/-! ### a film that scatters by 4 degrees -/

/-- Photons at normal incidence on a film of index 3/2 in air. -/
def hazeArgs (nt : ℕ) : Args (nt + 1) :=
  ⟨1, 3 / 2, .film, 0, 0, none, 0, 0, none, 1, none, 0, fun _ => 0, fun _ => 0, fun _ => 0, fun _ => 0, fun _ => 0, fun _ => 0,
    fun _ => 0⟩

/-- Every scattering is by 4 degrees, every step of length `log 2`. -/
def hazeSampling (nt : ℕ) : Sampling (nt + 1) 1 :=
  { p := fun _ => 1, min_angle := Real.pi / 45, draw_theta := fun _ _ => 0, rand_phi := fun _ _ => 0, mu_scat := 1, mu_scat_mie := none,
    fine_roughness := 0, rand_step := fun _ _ => 1 / 2, rand_mie := fun _ => 1 / 2, mu_abs := 0 }

/-- See `hazeArgs`: the film is 1 thick. -/
def hazeDet : DetArgs :=
  { n_medium := 1, n_sample := 3 / 2, thickness := 1, z_low := 0, n_front := none, n_back := none,
    detection_angle := Real.pi / 2, fine_roughness := 0, n_particle := none, n_matrix := none, gonio := none }

theorem haze_filmRun (nt : ℕ) : FilmRun (hazeArgs nt) (hazeSampling nt) hazeDet where
  nt_pos := Nat.succ_pos nt
  film := rfl
  no_diameter := rfl
  theta_len := fun l hl => (nomatch hl)
  phi_len := fun l hl => (nomatch hl)
  theta_range := le_rfl
  phi_range := le_rfl
  same_medium := rfl
  same_sample := rfl
  medium_pos := one_pos
  not_denser := by norm_num [hazeDet]
  front := fun x hx => (nomatch hx)
  back := fun x hx => (nomatch hx)
  particle := fun x hx => (nomatch hx)
  matrix := fun x hx => (nomatch hx)
  fine := ⟨le_rfl, zero_le_one⟩
  draw_t := fun _ => ⟨le_rfl, one_pos⟩
  draw_p := fun _ => ⟨le_rfl, one_pos⟩
  phase := fun _ => zero_le_one
  min_angle := ⟨by simp only [hazeSampling]; positivity, by simp only [hazeSampling]; linarith [Real.pi_pos]⟩
  phase_pos := by
    simp only [hazeSampling, solidWeight, linspace, Fin.sum_univ_one, if_true, one_mul]
    exact Real.sin_pos_of_pos_of_lt_pi (by positivity) (by linarith [Real.pi_pos])
  rand_phi := fun _ _ => ⟨le_rfl, one_pos⟩
  mu_scat := one_pos
  mu_mie := fun m hm => (nomatch hm)
  fine_step := ⟨le_rfl, zero_le_one⟩
  rand_step := fun _ _ => by norm_num [hazeSampling]
  rand_mie := fun _ => by norm_num [hazeSampling]
  mu_abs := le_rfl

/-- the draws -/
def hazeU : ℕ × Draw → Unit → ℝ
  | (_, .step _), _ => 1 / 2
  | _, _ => 0

theorem haze_stream : StreamRun hazeU 0 0 0 0 (fun _ : Fin 1 => 1) (Real.pi / 45) 1 0 (fun nt _ => hazeArgs nt) (fun nt _ => hazeSampling nt) where
  smooth := fun _ _ => rfl
  theta_data := fun _ _ => rfl
  phi_data := fun _ _ => rfl
  theta_min := fun _ _ => rfl
  theta_max := fun _ _ => rfl
  phi_min := fun _ _ => rfl
  phi_max := fun _ _ => rfl
  beam_theta := fun _ _ _ => rfl
  beam_phi := fun _ _ _ => rfl
  phase := fun _ _ => rfl
  min_angle := fun _ _ => rfl
  mu_scat := fun _ _ => rfl
  no_mie := fun _ _ => rfl
  mu_abs := fun _ _ => rfl
  draw_theta := fun _ _ _ _ => Fin.ext (by show 0 = _; omega)
  rand_phi := fun _ _ _ _ => rfl
  rand_step := fun _ _ _ _ => rfl

theorem haze_rows {nt : ℕ} {t : Trajs (nt + 1)} (ht : simulate 2 (hazeArgs nt) (hazeSampling nt) = .ok t) (j : Fin (nt + 1)) :
    (t.direction 0 j).z = 1 ∧ (t.direction 1 j).z = Real.cos (Real.pi / 45) ∧ (t.position 0 j).z = 0 ∧ (t.position 1 j).z = Real.log 2 ∧
      (t.position 2 j).z = Real.log 2 + Real.log 2 * Real.cos (Real.pi / 45) ∧ ∀ i, t.weight i j = 1 := by
  obtain ⟨h1, h2, h3⟩ := column haze_stream (haze_filmRun nt) (ω := ()) (nev := 1) ht j
  have hlog : -Real.log (1 - 1 / 2) = Real.log 2 := by
    rw [show (1:ℝ) - 1 / 2 = 2⁻¹ by norm_num, Real.log_inv, neg_neg]
  have hk0 : colK 0 0 0 0 (fun _ : Fin 1 => 1) (Real.pi / 45) 1 (3 / 2) (group hazeU j ()) 0 = ⟨0, 0, 1⟩ := by
    simp [colK, uniform]
  have hk1 : (colK 0 0 0 0 (fun _ : Fin 1 => 1) (Real.pi / 45) 1 (3 / 2) (group hazeU j ()) 1).z = Real.cos (Real.pi / 45) := by
    rw [colK, hk0]
    simp [turn, linspace]
  have hs : ∀ i, colS 1 (group hazeU j ()) i = Real.log 2 := by
    intro i
    simp only [colS, group, hazeU, div_one]
    exact hlog
  refine ⟨?_, ?_, ?_, ?_, ?_, ?_⟩
  · rw [h1 0 (by omega)]; exact congrArg V3.z hk0
  · rw [h1 1 le_rfl]; exact hk1
  · rw [h2 0 (by omega)]; rfl
  · rw [h2 1 (by omega), colZ, colZ, hs]
    have := congrArg V3.z hk0
    show 0 + Real.log 2 * (colK 0 0 0 0 (fun _ : Fin 1 => 1) (Real.pi / 45) 1 (3 / 2) (group hazeU j ()) 0).z = _
    rw [this]; simp
  · rw [h2 2 le_rfl, colZ, colZ, colZ, hs, hs]
    have := congrArg V3.z hk0
    show 0 + Real.log 2 * (colK 0 0 0 0 (fun _ : Fin 1 => 1) (Real.pi / 45) 1 (3 / 2) (group hazeU j ()) 0).z +
      Real.log 2 * (colK 0 0 0 0 (fun _ : Fin 1 => 1) (Real.pi / 45) 1 (3 / 2) (group hazeU j ()) 1).z = _
    rw [this, hk1]; simp
  · intro i
    rw [h3 i]
    simp [colW]

/-- bounds on the sine of 4 degrees -/
theorem four_degrees : Real.sin (Real.pi / 40) < 3 / 2 * Real.sin (Real.pi / 45) ∧ 3 / 2 * Real.sin (Real.pi / 45) < 1 / 2 ∧
    1 / 2 < Real.cos (Real.pi / 45) := by
  have hp := Real.pi_gt_three
  have hp' := Real.pi_lt_d2
  have x0 : 0 < Real.pi / 45 := by positivity
  have x1 : Real.pi / 45 ≤ 1 := by linarith
  have a := Real.sin_gt_sub_cube x0
  have b := Real.sin_lt x0
  have c := Real.sin_lt (show 0 < Real.pi / 40 by positivity)
  have d := Real.one_sub_sq_div_two_le_cos (x := Real.pi / 45)
  refine ⟨?_, by linarith, by nlinarith⟩
  nlinarith [mul_pos x0 x0]

/-- every photon crosses the film in its second step -/
theorem haze_fate {nt : ℕ} {t : Trajs (nt + 1)} (ht : simulate 2 (hazeArgs nt) (hazeSampling nt) = .ok t) (j : Fin (nt + 1)) :
    filmFate (3 / 2) 1 0 1 (fun e : Fin 3 => (t.position e j).z) (fun e : Fin 2 => (t.direction e j).z) = .transmitted 1 := by
  obtain ⟨k0, k1, p0, p1, p2, -⟩ := haze_rows ht j
  obtain ⟨b1, b2, b3⟩ := four_degrees
  have hl0 := Real.log_two_gt_d9
  have hl1 := Real.log_two_lt_d9
  have hcos := Real.cos_le_one (Real.pi / 45)
  have hsin : Real.sqrt (1 - Real.cos (Real.pi / 45) ^ 2) = Real.sin (Real.pi / 45) := by
    rw [show 1 - Real.cos (Real.pi / 45) ^ 2 = Real.sin (Real.pi / 45) ^ 2 by have := Real.sin_sq_add_cos_sq (Real.pi / 45); linarith,
      Real.sqrt_sq (Real.sin_nonneg_of_nonneg_of_le_pi (by positivity) (by linarith [Real.pi_pos]))]
  rw [filmFate_iff _ _ one_pos]
  have hz0 : (t.position ((0 : Fin 2).castSucc : Fin 3) j).z = 0 := p0
  have hz1 : (t.position ((0 : Fin 2).succ : Fin 3) j).z = Real.log 2 := p1
  have hz1' : (t.position ((1 : Fin 2).castSucc : Fin 3) j).z = Real.log 2 := p1
  have hz2 : (t.position ((1 : Fin 2).succ : Fin 3) j).z = Real.log 2 + Real.log 2 * Real.cos (Real.pi / 45) := p2
  have hk1 : (t.direction (1 : Fin 2) j).z = Real.cos (Real.pi / 45) := k1
  have hnone : ∀ f, ¬ LeavesThrough (3 / 2) 1 0 1 f (fun e : Fin 3 => (t.position e j).z) (fun e : Fin 2 => (t.direction e j).z) 0 := by
    rintro f ⟨-, b, hb, -⟩
    dsimp only at hb
    rw [hz0, hz1] at hb
    simp only [sub_zero, div_one] at hb
    rcases hb with ⟨h1, h2, h3⟩ | ⟨h1, h2, h3⟩
    · have c1 : (0:ℤ) < b := by exact_mod_cast h1
      have c2 : b < 1 := by
        have : (b:ℝ) < 1 := by linarith
        exact_mod_cast this
      omega
    · linarith
  refine ⟨⟨?_, 1, ?_, ?_⟩, fun e' he' => ?_⟩
  · dsimp only
    rw [hk1, hsin]; linarith
  · dsimp only
    rw [hz1', hz2]
    refine Or.inl ⟨?_, ?_, ?_⟩
    · simp only [sub_zero, div_one, Int.cast_one]; linarith
    · simp only [sub_zero, div_one, Int.cast_one]; nlinarith
    · intro c hc
      have : (0 : ℝ) < c := by simp only [sub_zero, div_one] at hc; linarith
      have : (0 : ℤ) < c := by exact_mod_cast this
      omega
  · rw [fold_int]
    simp
  · have : e' = 0 := by
      have h := he'
      fin_cases e'
      · rfl
      · exact absurd h (lt_irrefl _)
    subst this
    exact ⟨hnone _, hnone _⟩

/-- C151: **refuted.**  A film of index 3/2 in air, photons at normal incidence that are scattered once, by 4 degrees inside, and leave through
the far face, at about 6 degrees outside: none of the transmitted light travels within 4.5 degrees of the forward direction, its haze is 1, and
`calc_haze` returns 0. -/
theorem C151_haze_refuted (nt : ℕ) : ∃ t rt haze T f,
    simulate 2 (hazeArgs nt) (hazeSampling nt) = .ok t ∧
    runHaze 1 (hazeArgs nt) (hazeSampling nt) hazeDet (4.5 * Real.pi / 180) = .ok (rt, haze) ∧ rt.T = fin T ∧ 0 < T ∧
    (∀ j, rt.transPer j = fin (f j)) ∧ haze = fin 0 ∧
    trueHaze 1 (3 / 2) (4.5 * Real.pi / 180) 1 t (transEvents 1 hazeDet t) f T = 1 := by
  have H := haze_filmRun nt
  obtain ⟨t, ht, hunit, -⟩ := simulate_facts H 1
  have rows := fun j => haze_rows ht j
  have hfate := fun j => haze_fate ht j
  obtain ⟨b1, b2, b3⟩ := four_degrees
  have hcut : (4.5:ℝ) * Real.pi / 180 = Real.pi / 40 := by ring
  have htir : hazeDet.optics.n_tir = 3 / 2 := by
    show Weights.nTir (3 / 2) 0 none none = 3 / 2
    simp [Weights.nTir]
  obtain ⟨ok, rt, hrt, hcase⟩ := run_photons H rfl rfl rfl one_pos ht
  -- the photon
  have harc : Real.arccos |Real.cos (Real.pi / 45)| = Real.pi / 45 := by
    rw [abs_of_pos (by linarith), Real.arccos_cos (by positivity) (by linarith [Real.pi_pos])]
  have hev : ∀ j, transEvents 1 hazeDet t j = 2 := by
    intro j
    have := (fate_numbers (n := 3 / 2) (nm := 1) (th := 1) (zl := 0) (fun (i : Fin 3) j => (t.position i j).z)
      (fun (i : Fin 2) j => (t.direction i j).z) (fun e j => unit_z (hunit e j e.isLt)) (by norm_num) one_pos (by norm_num) one_pos
      (fate := fun _ => .transmitted 1) (fun j => (filmFate_iff _ _ one_pos _ _ _).mp (hfate j))).2.1 j
    unfold transEvents
    rw [htir]
    exact this
  have hf : ∀ j, filmFate hazeDet.optics.n_tir hazeDet.n_medium hazeDet.z_low hazeDet.thickness (fun e : Fin 3 => (t.position e j).z)
      (fun e : Fin 2 => (t.direction e j).z) = .transmitted 1 := fun j => by rw [htir]; exact hfate j
  let θ := Real.arcsin (3 / 2 * Real.sin (Real.pi / 45))
  have hs0 : 0 < Real.sin (Real.pi / 45) := Real.sin_pos_of_pos_of_lt_pi (by positivity) (by linarith [Real.pi_pos])
  have hθ0 : 0 ≤ θ := Real.arcsin_nonneg.mpr (by linarith)
  have hθ1 : θ < Real.pi / 2 := by rw [Real.arcsin_lt_pi_div_two]; linarith
  have hθs : Real.sin θ = 3 / 2 * Real.sin (Real.pi / 45) := Real.sin_arcsin (by linarith) (by linarith)
  have hin : Real.arcsin (1 * Real.sin θ / (3 / 2)) = Real.pi / 45 := by
    rw [hθs, show 1 * (3 / 2 * Real.sin (Real.pi / 45)) / (3 / 2) = Real.sin (Real.pi / 45) by ring]
    exact Real.arcsin_sin (by linarith [Real.pi_pos]) (by linarith [Real.pi_pos])
  have hesc : 0 < platePass (3 / 2) none 1 (Real.pi / 45) := by
    have := pass_out (nm := 1) (ns := 3 / 2) one_pos (by norm_num) hθ0 hθ1
    rw [hin] at this
    rw [this]
    have := (surfaceR_lt (nm := 1) (ns := 3 / 2) one_pos (by norm_num) hθ0 hθ1).2
    exact div_pos (by linarith) (by norm_num)
  have hent : 0 < platePass 1 none (3 / 2) 0 := by
    rw [pass_in (nm := 1) (ns := 3 / 2) one_pos (by norm_num) le_rfl (by positivity)]
    have := (surfaceR_lt (nm := 1) (ns := 3 / 2) (θ := 0) one_pos (by norm_num) le_rfl (by positivity)).2
    exact div_pos (by linarith) (by norm_num)
  have hp : ∀ j, 0 < (simPhoton 1 hazeDet t j).outT * (simPhoton 1 hazeDet t j).escT := by
    intro j
    have hf' := hf j
    apply mul_pos
    · simp only [simPhoton, smoothPhoton, filmPhotons]
      show 0 < platePass 1 none hazeDet.optics.n_tir (Real.arcsin (hazeDet.optics.n_tir / 1 * Real.sin (Real.arccos |(t.direction 0 j).z|))) *
        valueAt ((filmFate hazeDet.optics.n_tir hazeDet.n_medium hazeDet.z_low hazeDet.thickness _ _).transEvent) _
      rw [hf', htir, (rows j).1]
      simp only [abs_one, Real.arccos_one, Real.sin_zero, mul_zero, Real.arcsin_zero]
      show 0 < _ * t.weight 1 j
      rw [(rows j).2.2.2.2.2, mul_one]
      exact hent
    · simp only [simPhoton, smoothPhoton, filmPhotons]
      show 0 < platePass hazeDet.optics.n_tir none 1 (Real.arccos |valueAt
        ((filmFate hazeDet.optics.n_tir hazeDet.n_medium hazeDet.z_low hazeDet.thickness _ _).transEvent) _|)
      rw [hf', htir]
      show 0 < platePass (3 / 2) none 1 (Real.arccos |(t.direction 1 j).z|)
      rw [(rows j).2.1, harc]
      exact hesc
  have hknown : 0 < Photon.known (simPhoton 1 hazeDet t) := by
    have a1 : 0 ≤ Photon.absorbed (simPhoton 1 hazeDet t) := Finset.sum_nonneg fun j _ => by have := (ok j).sum; linarith
    have a2 : 0 ≤ Photon.escapedR (simPhoton 1 hazeDet t) := Finset.sum_nonneg fun j _ => mul_nonneg (ok j).outR.1 (ok j).escR.1
    have a3 : 0 < Photon.escapedT (simPhoton 1 hazeDet t) := Finset.sum_pos (fun j _ => hp j) Finset.univ_nonempty
    unfold Photon.known
    linarith
  have hseen := fun j => smooth_all_seen (nev := 1) (o := hazeDet.optics.medium) (by show (3:ℝ) / 2 = hazeDet.optics.n_tir; rw [htir])
    (by show 0 < hazeDet.optics.n_tir; rw [htir]; norm_num) one_pos rfl 0 1 (fun e : Fin 3 => (t.position e j).z)
    (fun e : Fin 2 => (t.direction e j).z) (fun e : Fin 2 => t.weight e j)
  rcases hcase with ⟨h0, -⟩ | ⟨hk, -, hT⟩
  · exact absurd h0 hknown.ne'
  have hTpos : 0 < ∑ j, Photon.trans (simPhoton 1 hazeDet t) j := by
    have hb := (own_bounds (p := simPhoton 1 hazeDet t) (Nat.succ_pos nt) ok (fun j => (hseen j).1) (fun j => (hseen j).2) hk).2.1
    have : 0 < ∑ j, ownT (simPhoton 1 hazeDet t j) := Finset.sum_pos (fun j _ => by
      have h1 := hp j
      have h2 := (ok j).trapped.1
      unfold ownT
      linarith) Finset.univ_nonempty
    exact (pos_iff_pos_of_mul_pos (lt_of_lt_of_le this hb)).mp (by exact_mod_cast Nat.succ_pos nt)
  have hcalc : Simulation.calcReflTransFilm 1 hazeDet t = .ok rt := by
    have h := hrt
    unfold runFilm at h
    rw [ht] at h
    exact h
  obtain ⟨f, hff, hsum⟩ := run_light H ht hcalc hT
  have hrun : runHaze 1 (hazeArgs nt) (hazeSampling nt) hazeDet (4.5 * Real.pi / 180) = .ok (rt, calcHaze
      (fun (i : Fin 2) j => (t.direction i j).z) (fun j => val (rt.transPer j)) (val rt.T) (transEvents 1 hazeDet t) (4.5 * Real.pi / 180)) := by
    unfold runHaze
    simp only [ht, hcalc, bind, Except.bind, pure, Except.pure]
  have hval : ∀ x : ℝ, val (fin x) = x := fun _ => rfl
  have hfv : (fun j => val (rt.transPer j)) = f := by funext j; rw [(hff j).1, hval]
  refine ⟨t, rt, _, _, f, ht, hrun, hT, hTpos, fun j => (hff j).1, ?_, ?_⟩
  · obtain ⟨h, hh, -, -, h0, -⟩ := C28_haze_fraction (fun (i : Fin 2) j => (t.direction i j).z) (fun e j => unit_z (hunit e j e.isLt)) f
      (fun j => (hff j).2) hTpos hsum.symm (transEvents 1 hazeDet t) (4.5 * Real.pi / 180)
    rw [hT, hval, hfv, hh, h0]
    intro j _
    unfold forwardAngle
    rw [dif_pos ⟨by rw [hev]; norm_num, by rw [hev]; norm_num⟩, hcut]
    have e2 : (⟨transEvents 1 hazeDet t j - 1, by rw [hev]; norm_num⟩ : Fin 2) = 1 := Fin.ext (by simp [hev])
    rw [e2]
    show Real.arccos |(t.direction 1 j).z| < _
    rw [(rows j).2.1, harc]
    linarith [Real.pi_pos]
  · unfold trueHaze
    rw [div_eq_one_iff_eq hTpos.ne', sub_eq_self]
    apply Finset.sum_eq_zero
    intro j _
    rw [if_neg]
    rintro ⟨e, he, hee, -, hlt⟩
    rw [hev] at hee
    have : e = 1 := by omega
    subst this
    rw [(rows j).2.1, harc, hcut, div_one, Real.arcsin_lt_iff_lt_sin' ⟨by linarith [Real.pi_pos], by linarith [Real.pi_pos]⟩] at hlt
    linarith

/-- Non-vacuity of C151: the demonstration run has a positive transmittance. -/
example : ∃ rt haze T, runHaze 1 (hazeArgs 4) (hazeSampling 4) hazeDet (4.5 * Real.pi / 180) = .ok (rt, haze) ∧ rt.T = fin T ∧ 0 < T := by
  obtain ⟨t, rt, haze, T, f, -, h1, h2, h3, -⟩ := C151_haze_refuted 4
  exact ⟨rt, haze, T, h1, h2, h3⟩

end
end Verif.Props
