import Verif.Props.Thickness
import Verif.Props.Ballistic

/-!
# C149: a film that does not scatter is a clear plate
-/

namespace Verif.Props
noncomputable section
open Classical Verif.Spec Verif.Root Verif.Fresnel Verif.Exits Verif.Weights _root_.Verif.XF
open Verif.Simulation Verif.Traj Verif.Init
open Verif (XF PyErr)

variable {nt num : ℕ}

/-- reflectance of the surface of a film at the angle of incidence `θ` -/
def surfaceR (nm ns θ : ℝ) : ℝ := fresnelR nm ns θ (Real.arcsin (nm * Real.sin θ / ns))

section angles
variable {nm ns θ : ℝ}

theorem sin_in (hm : 0 < nm) (hle : nm ≤ ns) (h0 : 0 ≤ θ) (h1 : θ < Real.pi / 2) :
    0 ≤ nm * Real.sin θ / ns ∧ nm * Real.sin θ / ns < 1 ∧ Real.sin θ < 1 := by
  have hs : Real.sin θ < 1 := by
    rw [← Real.sin_pi_div_two]
    exact Real.sin_lt_sin_of_lt_of_le_pi_div_two (by linarith [Real.pi_pos]) le_rfl h1
  have hs0 : 0 ≤ Real.sin θ := Real.sin_nonneg_of_nonneg_of_le_pi h0 (by linarith [Real.pi_pos])
  have hn : 0 < ns := hm.trans_le hle
  refine ⟨by positivity, ?_, hs⟩
  rw [div_lt_one hn]
  nlinarith

theorem pass_in (hm : 0 < nm) (hle : nm ≤ ns) (h0 : 0 ≤ θ) (h1 : θ < Real.pi / 2) :
    platePass nm none ns θ = (1 - surfaceR nm ns θ) / (1 + 1 / 10 ^ 9) := by
  obtain ⟨a1, a2, a3⟩ := sin_in hm hle h0 h1
  have hn : 0 < ns := hm.trans_le hle
  rw [div_lt_one hn] at a2
  unfold platePass
  simp only [Option.getD_none, mul_div_cancel_left₀ _ hm.ne']
  rw [Real.arcsin_sin (by linarith [Real.pi_pos]) h1.le]
  have hc : fresnelR nm nm θ θ = 0 := by unfold fresnelR; simp
  rw [hc, if_neg (by push Not; exact ⟨by nlinarith, a2, h1.ne⟩)]
  unfold surfaceR
  simp

theorem pass_out (hm : 0 < nm) (hle : nm ≤ ns) (h0 : 0 ≤ θ) (h1 : θ < Real.pi / 2) :
    platePass ns none nm (Real.arcsin (nm * Real.sin θ / ns)) = (1 - surfaceR nm ns θ) / (1 + 1 / 10 ^ 9) := by
  obtain ⟨a1, a2, a3⟩ := sin_in hm hle h0 h1
  have hn : 0 < ns := hm.trans_le hle
  have hsin : Real.sin (Real.arcsin (nm * Real.sin θ / ns)) = nm * Real.sin θ / ns := Real.sin_arcsin (by linarith) a2.le
  have hlt : Real.arcsin (nm * Real.sin θ / ns) < Real.pi / 2 := by rw [Real.arcsin_lt_pi_div_two]; exact a2
  have e : ns * (nm * Real.sin θ / ns) = nm * Real.sin θ := by field_simp
  unfold platePass
  simp only [Option.getD_none, hsin]
  rw [e, mul_div_cancel_left₀ _ hm.ne', Real.arcsin_sin (by linarith [Real.pi_pos]) h1.le]
  have hc : ∀ x, fresnelR ns ns x x = 0 := by intro x; unfold fresnelR; simp
  have hsw : ∀ x y, fresnelR ns nm x y = fresnelR nm ns y x := by
    intro x y
    unfold fresnelR
    rw [show ns * Real.cos y - nm * Real.cos x = -(nm * Real.cos x - ns * Real.cos y) by ring,
      show ns * Real.cos x - nm * Real.cos y = -(nm * Real.cos y - ns * Real.cos x) by ring, neg_div, neg_div, neg_sq, neg_sq,
      add_comm (ns * Real.cos y), add_comm (ns * Real.cos x)]
  have h3 : nm * Real.sin θ < ns := by rwa [div_lt_one hn] at a2
  rw [hc, hsw, if_neg (by push Not; exact ⟨h3, by nlinarith, hlt.ne⟩)]
  unfold surfaceR
  simp

end angles

/-- some light enters at every angle but grazing -/
theorem surfaceR_lt {nm ns θ : ℝ} (hm : 0 < nm) (hle : nm ≤ ns) (h0 : 0 ≤ θ) (h1 : θ < Real.pi / 2) :
    0 ≤ surfaceR nm ns θ ∧ surfaceR nm ns θ < 1 := by
  obtain ⟨a1, a2, a3⟩ := sin_in hm hle h0 h1
  have hs : 0 < ns := hm.trans_le hle
  have hlt : Real.arcsin (nm * Real.sin θ / ns) < Real.pi / 2 := by rw [Real.arcsin_lt_pi_div_two]; exact a2
  have c1 : 0 < Real.cos θ := Real.cos_pos_of_mem_Ioo ⟨by linarith [Real.pi_pos], h1⟩
  have c2 : 0 < Real.cos (Real.arcsin (nm * Real.sin θ / ns)) :=
    Real.cos_pos_of_mem_Ioo ⟨by have := Real.arcsin_nonneg.mpr a1; linarith [Real.pi_pos], hlt⟩
  have key : ∀ x y : ℝ, 0 < x → 0 < y → ((x - y) / (x + y)) ^ 2 < 1 := by
    intro x y hx hy
    rw [sq_lt_one_iff_abs_lt_one, abs_div, abs_of_pos (add_pos hx hy), div_lt_one (add_pos hx hy), abs_lt]
    constructor <;> linarith
  have k1 := key _ _ (mul_pos hm c2) (mul_pos hs c1)
  have k2 := key _ _ (mul_pos hm c1) (mul_pos hs c2)
  refine ⟨by unfold surfaceR fresnelR; positivity, ?_⟩
  unfold surfaceR fresnelR
  linarith

/-- fate of a photon whose first step ends behind the film -/
theorem fate_crossed {nev : ℕ} {nm ns L θ : ℝ} (hm : 0 < nm) (hle : nm ≤ ns) (hL : 0 < L) (h0 : 0 ≤ θ) (h1 : θ < Real.pi / 2)
    {z : Fin (nev + 2) → ℝ} {kz : Fin (nev + 1) → ℝ} (hkz : kz 0 = Real.sqrt (1 - (nm / ns * Real.sin θ) ^ 2)) (hz : z 0 = 0)
    (hz1 : L ≤ z 1) : filmFate ns nm 0 L z kz = .transmitted 0 := by
  rw [filmFate_iff _ _ hL]
  obtain ⟨a1, a2, a3⟩ := sin_in hm hle h0 h1
  have hs : 0 < ns := hm.trans_le hle
  rw [mul_div_right_comm] at a1 a2
  have e0 : (z (0 : Fin (nev + 1)).castSucc - 0) / (L - 0) = 0 := by
    have : z (0 : Fin (nev + 1)).castSucc = 0 := hz
    rw [this]; simp
  have e1 : (z (0 : Fin (nev + 1)).succ - 0) / (L - 0) = z 1 / L := by
    have : z (0 : Fin (nev + 1)).succ = z 1 := rfl
    rw [this]; simp
  refine ⟨⟨?_, 1, ?_, ?_⟩, fun e' he' => absurd he' (Fin.not_lt_zero e')⟩
  · rw [hkz, Real.sq_sqrt (by nlinarith), show 1 - (1 - (nm / ns * Real.sin θ) ^ 2) = (nm / ns * Real.sin θ) ^ 2 by ring,
      Real.sqrt_sq a1, ← mul_assoc, mul_div_cancel₀ _ hs.ne']
    nlinarith
  · rw [e0, e1]
    refine Or.inl ⟨by norm_num, ?_, ?_⟩
    · rw [le_div_iff₀ hL]; simpa using hz1
    · intro c hc
      have : (0 : ℤ) < c := by exact_mod_cast hc
      omega
  · rw [fold_int]
    simp

/-- What is counted of a film whose photons all cross it in their first step. -/
theorem crossed_run {a : Args nt} {S : Sampling nt num} {d : DetArgs} (H : FilmRun a S d) {θ mu mua : ℝ}
    (C : Collimated a S θ d.n_medium d.n_sample mu mua) (h0 : 0 ≤ θ) (h1 : θ < Real.pi / 2)
    (hfine : d.fine_roughness = 0) (hg : d.gonio = none) (hfront : d.n_front = none) (hback : d.n_back = none)
    (hdet : d.detection_angle = Real.pi / 2) (hlow : d.z_low = 0) (hpos : 0 < d.thickness) (nev : ℕ)
    (hcross : ∀ j, d.thickness ≤ -Real.log (1 - S.rand_step 0 j) / mu * Real.sqrt (1 - (d.n_medium / d.n_sample * Real.sin θ) ^ 2)) :
    let r := surfaceR d.n_medium d.n_sample θ
    let c := (1 - r) / (1 + 1 / 10 ^ 9)
    let w := fun j => Real.exp (-(mua * (-Real.log (1 - S.rand_step 0 j) / mu)))
    ∃ rt, runFilm nev a S d = .ok rt ∧ rt.T = fin ((∑ j, c * w j * c) / nt) ∧ (mua = 0 → rt.R = fin (1 - c * c) ∧ rt.T = fin (c * c)) := by
  intro r c w
  have hm := H.medium_pos
  have hle := H.not_denser
  have hmu : 0 < mu := C.scat ▸ H.mu_scat
  have htir : d.optics.n_tir = d.n_sample := by
    show Weights.nTir _ _ _ _ = _
    unfold Weights.nTir
    rw [hfine]
    cases d.n_particle <;> cases d.n_matrix <;> simp
  obtain ⟨t, ht, -⟩ := simulate_facts H nev
  have rows := fun j => collimated_rows C hm hle hmu ht j
  obtain ⟨ok, rt, hrt, hcase⟩ := run_photons H C.smooth hfine hg (hlow ▸ hpos) ht
  obtain ⟨a1, a2, a3⟩ := sin_in hm hle h0 h1
  have hs : 0 < d.n_sample := hm.trans_le hle
  have hkarc : ∀ j, Real.arccos |(t.direction 0 j).z| = Real.arcsin (d.n_medium * Real.sin θ / d.n_sample) := by
    intro j
    rw [(rows j).1, abs_of_nonneg (Real.sqrt_nonneg _), ← mul_div_right_comm, Real.arcsin_eq_arccos a1]
  have hinc : Real.arcsin (d.n_sample / d.n_medium * Real.sin (Real.arcsin (d.n_medium * Real.sin θ / d.n_sample))) = θ := by
    rw [Real.sin_arcsin (by linarith) a2.le]
    have : d.n_sample / d.n_medium * (d.n_medium * Real.sin θ / d.n_sample) = Real.sin θ := by field_simp
    rw [this, Real.arcsin_sin (by linarith [Real.pi_pos]) h1.le]
  have hfate : ∀ j, filmFate d.optics.n_tir d.n_medium d.z_low d.thickness (fun e : Fin (nev + 2) => (t.position e j).z)
      (fun e : Fin (nev + 1) => (t.direction e j).z) = .transmitted 0 := fun j => by
    rw [htir, hlow]
    exact fate_crossed hm hle hpos h0 h1 (rows j).1 (rows j).2.1 (by show _ ≤ (t.position 1 j).z; rw [(rows j).2.2.1]; exact hcross j)
  have hp : ∀ j, (simPhoton nev d t j).enter = c ∧ (simPhoton nev d t j).outR = 0 ∧ (simPhoton nev d t j).outT = c * w j ∧
      (simPhoton nev d t j).trapped = 0 ∧ (simPhoton nev d t j).escT = c ∧ (simPhoton nev d t j).seenInc := by
    intro j
    have hE : platePass d.n_medium none d.n_sample θ = c := pass_in hm hle h0 h1
    have hX : platePass d.n_sample none d.n_medium (Real.arcsin (d.n_medium * Real.sin θ / d.n_sample)) = c := pass_out hm hle h0 h1
    have hf' := hfate j
    refine ⟨?_, ?_, ?_, ?_, ?_, ?_⟩
    all_goals simp only [simPhoton, smoothPhoton, filmPhotons]
    · show platePass d.n_medium d.n_front d.optics.n_tir _ = c
      rw [hfront, htir]
      show platePass _ _ _ (Real.arcsin (d.optics.n_tir / d.n_medium * Real.sin (Real.arccos |(t.direction 0 j).z|))) = c
      rw [htir, hkarc, hinc, hE]
    · show _ * valueAt ((filmFate d.optics.n_tir d.n_medium d.z_low d.thickness _ _).reflEvent) _ = 0
      rw [hf']; exact mul_zero _
    · show platePass d.n_medium d.n_front d.optics.n_tir (Real.arcsin (d.optics.n_tir / d.n_medium * Real.sin (Real.arccos |(t.direction 0 j).z|))) *
        valueAt ((filmFate d.optics.n_tir d.n_medium d.z_low d.thickness _ _).transEvent) _ = c * w j
      rw [hf', hfront, htir, hkarc, hinc, hE]
      show c * t.weight 0 j = c * w j
      rw [(rows j).2.2.2]
    · show _ * valueAt ((filmFate d.optics.n_tir d.n_medium d.z_low d.thickness _ _).lastEvent) _ = 0
      rw [hf']; exact mul_zero _
    · show platePass d.optics.n_tir d.n_back d.n_medium (Real.arccos |valueAt ((filmFate d.optics.n_tir d.n_medium d.z_low d.thickness _ _).transEvent) _|) = c
      rw [hf', hback, htir]
      show platePass _ _ _ (Real.arccos |(t.direction 0 j).z|) = c
      rw [hkarc, hX]
    · show Real.arccos |(t.direction 0 j).z| ≤ d.detection_angle
      rw [hdet, Real.arccos_le_pi_div_two]; exact abs_nonneg _
  obtain ⟨r0, r1⟩ := surfaceR_lt hm hle h0 h1
  have hc0 : 0 < c := div_pos (by linarith) (by norm_num)
  have hc1 : c ≤ 1 := by
    show (1 - r) / (1 + 1 / 10 ^ 9) ≤ 1
    rw [div_le_one (by norm_num)]
    have : (0:ℝ) ≤ r := r0
    linarith [show (0:ℝ) < 1 / 10 ^ 9 by norm_num]
  have hmua : 0 ≤ mua := C.abs ▸ H.mu_abs
  have hw0 : ∀ j, 0 < w j := fun j => Real.exp_pos _
  have hw1 : ∀ j, w j ≤ 1 := fun j => by
    refine Real.exp_le_one_iff.mpr (neg_nonpos.mpr (mul_nonneg hmua (div_nonneg ?_ hmu.le)))
    have := H.rand_step 0 j
    exact neg_nonneg.mpr (Real.log_nonpos (by linarith) (by linarith))
  have hN : (0:ℝ) < nt := by exact_mod_cast H.nt_pos
  let p := simPhoton nev d t
  have eR : Photon.escapedR p = 0 := Finset.sum_eq_zero fun j _ => by rw [(hp j).2.1, zero_mul]
  have eT : Photon.escapedT p = ∑ j, c * w j * c := Finset.sum_congr rfl fun j _ => by rw [(hp j).2.2.1, (hp j).2.2.2.2.1]
  have eA : Photon.absorbed p = ∑ j, (c - c * w j) := Finset.sum_congr rfl fun j _ => by
    rw [(hp j).1, (hp j).2.1, (hp j).2.2.1, (hp j).2.2.2.1]; ring
  have tp : 0 < Photon.escapedT p := by
    rw [eT]
    exact Finset.sum_pos (fun j _ => by have := hw0 j; positivity) (Finset.univ_nonempty_iff.mpr ⟨⟨0, H.nt_pos⟩⟩)
  have ap : 0 ≤ Photon.absorbed p := by
    rw [eA]
    exact Finset.sum_nonneg fun j _ => by nlinarith [hw1 j]
  have kp : Photon.known p ≠ 0 := by unfold Photon.known; rw [eR]; linarith
  rcases hcase with ⟨h, -⟩ | ⟨-, hR, hT⟩
  · exact absurd h kp
  have seen := fun j => smooth_all_seen (o := d.optics.medium) (nev := nev) htir.symm (by show 0 < d.optics.n_tir; rw [htir]; exact hs)
    hm hdet d.z_low d.thickness (fun e => (t.position e j).z) (fun e => (t.direction e j).z) (fun e => t.weight e j)
  have hseenT : ∀ j, (p j).seenT := fun j => (seen j).2 (by
    show (simPhoton nev d t j).escT ≠ 0
    rw [(hp j).2.2.2.2.1]; exact hc0.ne')
  have hT' : rt.T = fin ((∑ j, c * w j * c) / nt) := by
    rw [hT, Finset.sum_div]
    refine congrArg fin (Finset.sum_congr rfl fun j _ => ?_)
    show Photon.trans p j = _
    unfold Photon.trans
    rw [if_pos (hseenT j), eR]
    show ((simPhoton nev d t j).outT * (simPhoton nev d t j).escT + ((simPhoton nev d t j).outT * (1 - (simPhoton nev d t j).escT) * (0 / _) +
      (simPhoton nev d t j).outR * _ * _ + (simPhoton nev d t j).trapped / 2) * _) / _ = _
    rw [(hp j).2.1, (hp j).2.2.1, (hp j).2.2.2.1, (hp j).2.2.2.2.1]
    simp
  refine ⟨rt, hrt, hT', fun hz => ?_⟩
  have w1 : ∀ j, w j = 1 := fun j => by simp [w, hz]
  have a0 : Photon.absorbed p = 0 := by rw [eA]; simp [w1]
  constructor
  · rw [hR]
    congr 1
    have sh : Photon.shareR p = 1 := by
      unfold Photon.shareR
      rw [eR]
      have : ∑ j, (if (p j).seenR then (p j).outR * (p j).escR else 0) = 0 := Finset.sum_eq_zero fun j _ => by
        have : (p j).outR = 0 := (hp j).2.1
        rw [this, zero_mul, ite_self]
      rw [this]
      exact div_self (by norm_num)
    have fT : Photon.escapedT p / Photon.known p = 1 := by
      unfold Photon.known
      rw [a0, eR, zero_add, zero_add, div_self tp.ne']
    have each : ∀ j, Photon.refl p j = (1 - c * c) / nt := fun j => by
      unfold Photon.refl
      rw [sh, fT, eR, if_pos (hp j).2.2.2.2.2, zero_div]
      show ((if _ then (simPhoton nev d t j).outR * _ else 0) + (1 - (simPhoton nev d t j).enter) + ((simPhoton nev d t j).outR * _ * _ +
        (simPhoton nev d t j).outT * (1 - (simPhoton nev d t j).escT) * _ + (simPhoton nev d t j).trapped / 2) * _) / _ = _
      rw [(hp j).1, (hp j).2.1, (hp j).2.2.1, (hp j).2.2.2.1, (hp j).2.2.2.2.1, w1]
      simp only [zero_mul, ite_self]
      ring
    rw [Finset.sum_congr rfl fun j _ => each j]
    simp [mul_div_cancel₀ _ hN.ne']
  · rw [hT']
    simp only [w1, mul_one, Finset.sum_const, Finset.card_univ, Fintype.card_fin, nsmul_eq_mul]
    rw [mul_div_cancel_left₀ _ hN.ne']

/-- the sampling of a run, with another scattering coefficient -/
def withScat (μ : ℝ) (S : Sampling nt num) : Sampling nt num := { S with mu_scat := μ }

theorem withScat_run {a : Args nt} {S : Sampling nt num} {d : DetArgs} (H : FilmRun a S d) {θ mu mua : ℝ}
    (C : Collimated a S θ d.n_medium d.n_sample mu mua) {μ : ℝ} (hμ : 0 < μ) :
    FilmRun a (withScat μ S) d ∧ Collimated a (withScat μ S) θ d.n_medium d.n_sample μ mua :=
  ⟨{ nt_pos := H.nt_pos, film := H.film, no_diameter := H.no_diameter, theta_len := H.theta_len, phi_len := H.phi_len
     theta_range := H.theta_range, phi_range := H.phi_range, same_medium := H.same_medium, same_sample := H.same_sample
     medium_pos := H.medium_pos, not_denser := H.not_denser, front := H.front, back := H.back, particle := H.particle
     matrix := H.matrix, fine := H.fine, draw_t := H.draw_t, draw_p := H.draw_p, phase := H.phase, min_angle := H.min_angle
     phase_pos := H.phase_pos, rand_phi := H.rand_phi, mu_scat := hμ, mu_mie := H.mu_mie, fine_step := H.fine_step
     rand_step := H.rand_step, rand_mie := H.rand_mie, mu_abs := H.mu_abs },
   { film := C.film, smooth := C.smooth, medium := C.medium, sample := C.sample, theta_min := C.theta_min, theta_max := C.theta_max
     no_data := C.no_data, scat := rfl, no_mie := C.no_mie, no_fine := C.no_fine, abs := C.abs }⟩

/-- the shortest first step of the bundle, in free paths -/
theorem shortest_step {a : Args nt} {S : Sampling nt num} {d : DetArgs} (H : FilmRun a S d) (hdraw : ∀ j, 0 < S.rand_step 0 j) :
    ∃ δ > 0, ∀ j, δ ≤ -Real.log (1 - S.rand_step 0 j) := by
  have : Nonempty (Fin nt) := ⟨⟨0, H.nt_pos⟩⟩
  obtain ⟨j, hj⟩ := Finite.exists_min fun j => -Real.log (1 - S.rand_step 0 j)
  refine ⟨_, ?_, hj⟩
  have := H.rand_step 0 j
  have h := Real.log_neg (by linarith : 0 < 1 - S.rand_step 0 j) (by linarith [hdraw j])
  linarith

/-- Light that passes a clear plate of index `ns` in the medium `nm`, all reflections inside it included. -/
def plateT (nm ns θ : ℝ) : ℝ := platePass nm (some ns) nm θ

/-- C149, what holds.  A film without absorption, lit at one angle: if it scatters little enough, the run returns `R = 1 - T` and a
transmittance that is that of a clear plate of the film's index, or smaller by at most the square of the surface's reflectance (and twice the
code's `10⁻⁹`). -/
theorem C149_clear_film_partial {a : Args nt} {S : Sampling nt num} {d : DetArgs} (H : FilmRun a S d) {θ mu : ℝ}
    (C : Collimated a S θ d.n_medium d.n_sample mu 0) (h0 : 0 ≤ θ) (h1 : θ < Real.pi / 2) (hdraw : ∀ j, 0 < S.rand_step 0 j)
    (hfine : d.fine_roughness = 0) (hg : d.gonio = none) (hfront : d.n_front = none) (hback : d.n_back = none)
    (hdet : d.detection_angle = Real.pi / 2) (hlow : d.z_low = 0) (hpos : 0 < d.thickness) (nev : ℕ) :
    ∃ μ₀ > 0, ∀ μ, 0 < μ → μ ≤ μ₀ → ∃ rt T, runFilm nev a (withScat μ S) d = .ok rt ∧ rt.T = fin T ∧ rt.R = fin (1 - T) ∧
      T ≤ plateT d.n_medium d.n_sample θ ∧ plateT d.n_medium d.n_sample θ ≤ T + surfaceR d.n_medium d.n_sample θ ^ 2 + 2 / 10 ^ 9 := by
  obtain ⟨δ, hδ, hs⟩ := shortest_step H hdraw
  obtain ⟨a1, a2, a3⟩ := sin_in H.medium_pos H.not_denser h0 h1
  set κ := Real.sqrt (1 - (d.n_medium / d.n_sample * Real.sin θ) ^ 2) with hκ
  have hκ0 : 0 < κ := Real.sqrt_pos.mpr (by rw [mul_div_right_comm] at a1 a2; nlinarith)
  obtain ⟨r0, r1⟩ := surfaceR_lt H.medium_pos H.not_denser h0 h1
  refine ⟨δ * κ / d.thickness, by positivity, fun μ hμ hμ0 => ?_⟩
  obtain ⟨H', C'⟩ := withScat_run H C hμ
  obtain ⟨rt, hrt, -, h⟩ := crossed_run H' C' h0 h1 hfine hg hfront hback hdet hlow hpos nev (fun j => by
    show d.thickness ≤ -Real.log (1 - S.rand_step 0 j) / μ * κ
    rw [le_div_iff₀ hpos] at hμ0
    have h2 : μ * d.thickness ≤ -Real.log (1 - S.rand_step 0 j) * κ := hμ0.trans (mul_le_mul_of_nonneg_right (hs j) hκ0.le)
    rw [div_mul_eq_mul_div, le_div_iff₀ hμ]
    linarith)
  obtain ⟨hR, hT⟩ := h rfl
  refine ⟨rt, _, hrt, hT, hR, ?_⟩
  have hplate : plateT d.n_medium d.n_sample θ = (1 - surfaceR d.n_medium d.n_sample θ) ^ 2 / (1 - surfaceR d.n_medium d.n_sample θ ^ 2 + 1 / 10 ^ 9) := by
    have hn : 0 < d.n_sample := H.medium_pos.trans_le H.not_denser
    have hsw : ∀ x y, fresnelR d.n_sample d.n_medium x y = fresnelR d.n_medium d.n_sample y x := by
      intro x y
      unfold fresnelR
      rw [show d.n_sample * Real.cos y - d.n_medium * Real.cos x = -(d.n_medium * Real.cos x - d.n_sample * Real.cos y) by ring,
        show d.n_sample * Real.cos x - d.n_medium * Real.cos y = -(d.n_medium * Real.cos y - d.n_sample * Real.cos x) by ring, neg_div, neg_div, neg_sq, neg_sq,
        add_comm (d.n_sample * Real.cos y), add_comm (d.n_sample * Real.cos x)]
    rw [div_lt_one hn] at a2
    have hm := H.medium_pos
    unfold plateT platePass
    simp only [Option.getD_some]
    rw [if_neg (by push Not; exact ⟨a2, by nlinarith, h1.ne⟩), mul_div_cancel_left₀ _ H.medium_pos.ne',
      Real.arcsin_sin (by linarith [Real.pi_pos]) h1.le, hsw]
    unfold surfaceR
    ring
  rw [hplate]
  have alg : ∀ r ε : ℝ, 0 ≤ r → r < 1 → 0 < ε → ε ≤ 1 / 2 → (1 - r) / (1 + ε) * ((1 - r) / (1 + ε)) ≤ (1 - r) ^ 2 / (1 - r ^ 2 + ε) ∧
      (1 - r) ^ 2 / (1 - r ^ 2 + ε) ≤ (1 - r) / (1 + ε) * ((1 - r) / (1 + ε)) + r ^ 2 + 2 * ε := by
    intro r ε hr hr1 hε hε1
    have d1 : 0 < 1 - r ^ 2 + ε := by nlinarith
    have d2 : 0 < (1 + ε) * (1 + ε) := by positivity
    rw [div_mul_div_comm]
    constructor
    · rw [div_le_div_iff₀ d2 d1]
      rw [sq (1 - r)]
      exact mul_le_mul_of_nonneg_left (by nlinarith [sq_nonneg r, sq_nonneg ε]) (mul_self_nonneg _)
    · rw [add_assoc, div_add' _ _ _ d2.ne', div_le_div_iff₀ d1 d2]
      have h3 : (1 - r) * (1 - r) ≤ 1 - r ^ 2 := by nlinarith
      have h4 : 0 ≤ (1 - r) * (1 - r) := mul_self_nonneg _
      have h5 : (1 - r) * (1 - r) * (r ^ 2 + ε + ε ^ 2) ≤ (1 - r ^ 2 + ε) * (r ^ 2 + 2 * ε) * ((1 + ε) * (1 + ε)) := by
        calc (1 - r) * (1 - r) * (r ^ 2 + ε + ε ^ 2) ≤ (1 - r ^ 2 + ε) * (r ^ 2 + 2 * ε) := by
              apply mul_le_mul (by linarith) (by nlinarith) (by positivity) d1.le
          _ ≤ (1 - r ^ 2 + ε) * (r ^ 2 + 2 * ε) * ((1 + ε) * (1 + ε)) := by
              apply le_mul_of_one_le_right (by positivity)
              nlinarith
      nlinarith
  have := alg _ (1 / 10 ^ 9) r0 r1 (by norm_num) (by norm_num)
  refine ⟨this.1, ?_⟩
  have h9 : (2:ℝ) / 10 ^ 9 = 2 * (1 / 10 ^ 9) := by norm_num
  rw [h9]
  exact this.2

/-- C149 with absorption: **refuted.**  Whatever the thickness of an absorbing film, the transmittance goes to 0 as the film scatters less and
less (the code absorbs along the whole last step, which then is long, and not along its part inside the film), while a clear absorbing plate
transmits the same positive fraction of the light, whatever its scattering. -/
theorem C149_absorbing_clear_film_refuted {a : Args nt} {S : Sampling nt num} {d : DetArgs} (H : FilmRun a S d) {θ mu mua : ℝ}
    (C : Collimated a S θ d.n_medium d.n_sample mu mua) (hmua : 0 < mua) (h0 : 0 ≤ θ) (h1 : θ < Real.pi / 2) (hdraw : ∀ j, 0 < S.rand_step 0 j)
    (hfine : d.fine_roughness = 0) (hg : d.gonio = none) (hfront : d.n_front = none) (hback : d.n_back = none)
    (hdet : d.detection_angle = Real.pi / 2) (hlow : d.z_low = 0) (hpos : 0 < d.thickness) (nev : ℕ) :
    (∀ ε > 0, ∃ μ₀ > 0, ∀ μ, 0 < μ → μ ≤ μ₀ → ∃ rt T, runFilm nev a (withScat μ S) d = .ok rt ∧ rt.T = fin T ∧ 0 ≤ T ∧ T ≤ ε) ∧
    0 < (1 - surfaceR d.n_medium d.n_sample θ) ^ 2 *
      Real.exp (-(mua * (d.thickness / Real.sqrt (1 - (d.n_medium / d.n_sample * Real.sin θ) ^ 2)))) := by
  obtain ⟨r0, r1⟩ := surfaceR_lt H.medium_pos H.not_denser h0 h1
  refine ⟨fun ε hε => ?_, mul_pos (pow_pos (by linarith) 2) (Real.exp_pos _)⟩
  obtain ⟨δ, hδ, hs⟩ := shortest_step H hdraw
  obtain ⟨a1, a2, a3⟩ := sin_in H.medium_pos H.not_denser h0 h1
  set κ := Real.sqrt (1 - (d.n_medium / d.n_sample * Real.sin θ) ^ 2) with hκ
  have hκ0 : 0 < κ := Real.sqrt_pos.mpr (by rw [mul_div_right_comm] at a1 a2; nlinarith)
  refine ⟨min (δ * κ / d.thickness) (mua * δ * ε), lt_min (by positivity) (by positivity), fun μ hμ hμ0 => ?_⟩
  obtain ⟨H', C'⟩ := withScat_run H C hμ
  obtain ⟨rt, hrt, hT, -⟩ := crossed_run H' C' h0 h1 hfine hg hfront hback hdet hlow hpos nev (fun j => by
    show d.thickness ≤ -Real.log (1 - S.rand_step 0 j) / μ * κ
    have hμ1 := hμ0.trans (min_le_left _ _)
    rw [le_div_iff₀ hpos] at hμ1
    have h2 : μ * d.thickness ≤ -Real.log (1 - S.rand_step 0 j) * κ := hμ1.trans (mul_le_mul_of_nonneg_right (hs j) hκ0.le)
    rw [div_mul_eq_mul_div, le_div_iff₀ hμ]
    linarith)
  set c := (1 - surfaceR d.n_medium d.n_sample θ) / (1 + 1 / 10 ^ 9) with hc
  have hc0 : 0 ≤ c := div_nonneg (by linarith) (by norm_num)
  have hc1 : c ≤ 1 := by
    rw [hc, div_le_one (by norm_num)]
    linarith [show (0:ℝ) < 1 / 10 ^ 9 by norm_num]
  have hN : (0:ℝ) < nt := by exact_mod_cast H.nt_pos
  refine ⟨rt, _, hrt, hT, ?_, ?_⟩
  · exact div_nonneg (Finset.sum_nonneg fun j _ => mul_nonneg (mul_nonneg hc0 (Real.exp_pos _).le) hc0) hN.le
  · rw [div_le_iff₀ hN]
    have each : ∀ j : Fin nt, c * Real.exp (-(mua * (-Real.log (1 - (withScat μ S).rand_step 0 j) / μ))) * c ≤ ε := by
      intro j
      have hx : 0 < mua * (-Real.log (1 - S.rand_step 0 j) / μ) := mul_pos hmua (div_pos (hδ.trans_le (hs j)) hμ)
      have hb : 1 / ε ≤ mua * (-Real.log (1 - S.rand_step 0 j) / μ) := by
        have hμ1 := hμ0.trans (min_le_right _ _)
        rw [div_le_iff₀ hε, mul_div_assoc', div_mul_eq_mul_div, le_div_iff₀ hμ, one_mul]
        refine hμ1.trans ?_
        have := mul_le_mul_of_nonneg_left (hs j) hmua.le
        exact mul_le_mul_of_nonneg_right this hε.le
      have he : Real.exp (-(mua * (-Real.log (1 - S.rand_step 0 j) / μ))) ≤ ε := by
        rw [Real.exp_neg, inv_le_comm₀ (Real.exp_pos _) hε, ← one_div]
        have := Real.add_one_le_exp (mua * (-Real.log (1 - S.rand_step 0 j) / μ))
        linarith
      have e0 := Real.exp_pos (-(mua * (-Real.log (1 - S.rand_step 0 j) / μ)))
      calc c * Real.exp (-(mua * (-Real.log (1 - S.rand_step 0 j) / μ))) * c ≤ Real.exp (-(mua * (-Real.log (1 - S.rand_step 0 j) / μ))) :=
            (mul_le_of_le_one_right (by positivity) hc1).trans (mul_le_of_le_one_left e0.le hc1)
        _ ≤ ε := he
    calc _ ≤ ∑ _j : Fin nt, ε := Finset.sum_le_sum fun j _ => each j
      _ = ε * nt := by simp [mul_comm]

theorem demo_collimated (μ mua : ℝ) : Collimated demoArgs (withScat μ (demoSampling mua)) 0 1 (3 / 2) μ mua where
  film := rfl
  smooth := rfl
  medium := rfl
  sample := rfl
  theta_min := rfl
  theta_max := rfl
  no_data := rfl
  scat := rfl
  no_mie := rfl
  no_fine := rfl
  abs := rfl

theorem demo_surface : surfaceR 1 (3 / 2) 0 = 1 / 25 := by
  unfold surfaceR fresnelR
  norm_num

/-- C149: **refuted** as an equality.  A film of index 3/2 in air that does not absorb and scatters next to nothing, at normal incidence:
the transmittance that the code returns differs from that of the plate by more than 0.001 (reflections inside the film are followed once). -/
theorem C149_clear_film_refuted : ∃ μ₀ > 0, ∀ μ, 0 < μ → μ ≤ μ₀ → ∃ rt T,
    runFilm 5 demoArgs (withScat μ (demoSampling 0)) (demoDet none) = .ok rt ∧ rt.T = fin T ∧ T + 1 / 1000 < plateT 1 (3 / 2) 0 := by
  have hC := demo_collimated 1 0
  have hlog : (0:ℝ) < -Real.log (1 - 1 / 2) := by
    have := Real.log_neg (by norm_num : (0:ℝ) < 1 - 1 / 2) (by norm_num)
    linarith
  have hH := demo_filmRun 0 le_rfl none
  refine ⟨-Real.log (1 - 1 / 2) / 10, by positivity, fun μ hμ hμ0 => ?_⟩
  obtain ⟨H', C'⟩ := withScat_run hH (mu := 1) (θ := 0) (mua := 0) hC hμ
  obtain ⟨rt, hrt, -, h⟩ := crossed_run H' C' le_rfl (by positivity) rfl rfl rfl rfl rfl rfl (by norm_num [demoDet]) 5 (fun j => by
    show (10:ℝ) ≤ -Real.log (1 - 1 / 2) / μ * Real.sqrt (1 - (1 / (3 / 2) * Real.sin 0) ^ 2)
    rw [Real.sin_zero, mul_zero, zero_pow two_ne_zero, sub_zero, Real.sqrt_one, mul_one, le_div_iff₀ hμ]
    rw [le_div_iff₀ (by norm_num)] at hμ0
    linarith)
  obtain ⟨-, hT⟩ := h rfl
  refine ⟨rt, _, hrt, hT, ?_⟩
  show (1 - surfaceR 1 (3 / 2) 0) / (1 + 1 / 10 ^ 9) * ((1 - surfaceR 1 (3 / 2) 0) / (1 + 1 / 10 ^ 9)) + 1 / 1000 < _
  rw [demo_surface]
  have hp : (0:ℝ) ≠ Real.pi / 2 := by have := Real.pi_pos; intro h; linarith
  unfold plateT platePass
  simp only [Option.getD_some, Real.sin_zero, mul_zero, zero_div, Real.arcsin_zero]
  rw [if_neg (by push Not; exact ⟨by norm_num, by norm_num, hp⟩)]
  unfold fresnelR
  norm_num

/-- Non-vacuity of C149: the demonstration run, without and with absorption. -/
example : ∃ μ₀ > 0, ∀ μ, 0 < μ → μ ≤ μ₀ → ∃ rt T, runFilm 5 demoArgs (withScat μ (demoSampling 0)) (demoDet none) = .ok rt ∧ rt.T = fin T ∧
    rt.R = fin (1 - T) ∧ T ≤ plateT 1 (3 / 2) 0 ∧ plateT 1 (3 / 2) 0 ≤ T + surfaceR 1 (3 / 2) 0 ^ 2 + 2 / 10 ^ 9 :=
  C149_clear_film_partial (demo_filmRun 0 le_rfl none) (demo_collimated 1 0) le_rfl (by positivity) (fun _ => by norm_num [demoSampling])
    rfl rfl rfl rfl rfl rfl (by norm_num [demoDet]) 5

example := (C149_absorbing_clear_film_refuted (demo_filmRun 1 zero_le_one none) (demo_collimated 1 1) one_pos le_rfl (by positivity)
  (fun _ => by norm_num [demoSampling]) rfl rfl rfl rfl rfl rfl (by norm_num [demoDet]) 5).1

end
end Verif.Props
