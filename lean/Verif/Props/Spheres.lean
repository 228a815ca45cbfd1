import Verif.Model.Spheres
import Verif.Props.Sampling
import Mathlib.Analysis.SpecialFunctions.Pow.Real
import Mathlib.Analysis.SpecialFunctions.Trigonometric.Bounds

/-!
# C64, C81–C83: bulk parameters, exit positions and phase function of a structured sphere
-/

namespace Verif.Props
open Verif.Spheres Verif.XF
open Verif (XF PyErr)
open Verif.Traj (linspace)
open Verif.Spec (V3)

variable {nt : ℕ}

/-! ### C64: scattering and absorption coefficient -/

/-- C64 (all but the common normalisation).  If the reflected and transmitted fractions are non-negative and add up to at most 1, both
coefficients are non-negative; without spheres nothing scatters and the matrix alone absorbs; and unscattered transmission (exit at
event 1) does not contribute to scattering. -/
theorem C64_mu_partial (refl trans : Fin nt → ℝ) (ti : Fin nt → ℕ) (vf r k wl : ℝ) (hr : 0 < r) (hvf0 : 0 ≤ vf) (hvf1 : vf ≤ 1)
    (hk : 0 ≤ k) (hwl : 0 < wl) (hrefl : ∀ j, 0 ≤ refl j) (htrans : ∀ j, 0 ≤ trans j) (hsum : ∑ j, (refl j + trans j) ≤ 1) :
    0 ≤ (calcMuScatAbs refl trans ti vf r k wl).1 ∧ 0 ≤ (calcMuScatAbs refl trans ti vf r k wl).2 ∧
    calcMuScatAbs refl trans ti 0 r k wl = (0, 4 * Real.pi * k / wl) ∧
    (calcMuScatAbs refl (fun j => if ti j = 1 then 0 else trans j) ti vf r k wl).1 = (calcMuScatAbs refl trans ti vf r k wl).1 ∧
    (calcMuScatAbs refl trans ti vf r k wl).1 ≤ 3 / 2 * vf / r := by
  have hπ := Real.pi_pos
  have hnd : 0 ≤ Spheres.numberDensity vf r := by unfold Spheres.numberDensity; positivity
  have hs : 0 ≤ ∑ j, (refl j + if ti j = 1 then 0 else trans j) := Finset.sum_nonneg fun j _ => by
    split_ifs
    · linarith [hrefl j]
    · linarith [hrefl j, htrans j]
  have hs1 : ∑ j, (refl j + if ti j = 1 then 0 else trans j) ≤ 1 := le_trans (Finset.sum_le_sum fun j _ => by
    split_ifs
    · linarith [htrans j]
    · exact le_rfl) hsum
  refine ⟨?_, ?_, ?_, ?_, ?_⟩
  · simp only [calcMuScatAbs]; positivity
  · simp only [calcMuScatAbs]
    have h1 : 0 ≤ 1 - ∑ j, (refl j + trans j) := by linarith
    have h2 : 0 ≤ 1 - vf := by linarith
    positivity
  · simp [calcMuScatAbs, Spheres.numberDensity]
  · simp only [calcMuScatAbs]
    congr 4
    refine Finset.sum_congr rfl fun j _ => ?_
    split_ifs <;> rfl
  · simp only [calcMuScatAbs]
    calc Spheres.numberDensity vf r * ((∑ j, (refl j + if ti j = 1 then 0 else trans j)) * 2 * Real.pi * r ^ 2)
        ≤ Spheres.numberDensity vf r * (1 * 2 * Real.pi * r ^ 2) := by gcongr
      _ = 3 / 2 * vf / r := by unfold Spheres.numberDensity; field_simp; ring

/-- C64, refuted: scattered light is counted with the cross section 2πr², absorbed light with πr²: a sphere that scatters all the light
gets twice the coefficient of one that absorbs all of it. -/
theorem C64_normalisation_refuted (vf r wl : ℝ) (hr : 0 < r) (hvf : 0 < vf) (ti : Fin 1 → ℕ) :
    (calcMuScatAbs (fun _ : Fin 1 => 1) (fun _ => 0) ti vf r 0 wl).1 = 2 * (calcMuScatAbs (fun _ : Fin 1 => 0) (fun _ => 0) ti vf r 0 wl).2 ∧
    (calcMuScatAbs (fun _ : Fin 1 => 1) (fun _ => 0) ti vf r 0 wl).1 ≠ (calcMuScatAbs (fun _ : Fin 1 => 0) (fun _ => 0) ti vf r 0 wl).2 := by
  have hπ := Real.pi_pos
  have hnd : 0 < Spheres.numberDensity vf r := by unfold Spheres.numberDensity; positivity
  have e1 : (calcMuScatAbs (fun _ : Fin 1 => 1) (fun _ => 0) ti vf r 0 wl).1 = Spheres.numberDensity vf r * (2 * Real.pi * r ^ 2) := by
    simp [calcMuScatAbs]
  have e2 : (calcMuScatAbs (fun _ : Fin 1 => 0) (fun _ => 0) ti vf r 0 wl).2 = Spheres.numberDensity vf r * (Real.pi * r ^ 2) := by
    simp [calcMuScatAbs]
  rw [e1, e2]
  have : 0 < Spheres.numberDensity vf r * (Real.pi * r ^ 2) := by positivity
  constructor
  · ring
  · intro h; nlinarith

example : ∑ j : Fin 2, ((![1/4, 0] : Fin 2 → ℝ) j + (![0, 1/2] : Fin 2 → ℝ) j) ≤ 1 := by
  simp [Fin.sum_univ_two]; norm_num

/-! ### C81: spacing and exit positions -/

/-- C81.  The average spacing is the diameter of the volume available to each sphere: the spheres fill the volume fraction of it; it is at
least the sphere diameter. -/
theorem C81_spacing (vf r : ℝ) (hr : 0 < r) (h0 : 0 < vf) (h1 : vf ≤ 1) :
    (2 * r) ^ 3 = vf * calcDAvg vf r ^ 3 ∧ 2 * r ≤ calcDAvg vf r := by
  have hπ := Real.pi_pos
  have e : 3 / (4 * Real.pi * Spheres.numberDensity vf r) = r ^ 3 / vf := by
    unfold Spheres.numberDensity; field_simp
  have hc : calcDAvg vf r ^ 3 = 8 * (r ^ 3 / vf) := by
    unfold calcDAvg
    rw [e, mul_pow, ← Real.rpow_natCast ((r ^ 3 / vf) ^ ((1:ℝ)/3)) 3, ← Real.rpow_mul (by positivity)]
    norm_num
  have heq : (2 * r) ^ 3 = vf * calcDAvg vf r ^ 3 := by rw [hc]; field_simp; norm_num
  have hpos : 0 ≤ calcDAvg vf r := by unfold calcDAvg; rw [e]; positivity
  refine ⟨heq, ?_⟩
  have : (2 * r) ^ 3 ≤ calcDAvg vf r ^ 3 := by
    rw [heq]
    have := pow_nonneg hpos 3
    nlinarith
  exact le_of_pow_le_pow_left₀ (by norm_num) hpos this

/-- C81.  A trajectory that leaves the sphere once, with a unit normal, exits at the point of the sphere of that radius in the direction of
the normal; one that does not leave is put at the centre. -/
theorem C81_exit_position (n : V3) (r : ℝ) (hr : 0 ≤ r) (hn : n.normSq = 1) :
    getExitPos n V3.zero r = V3.smul r n ∧ getExitPos V3.zero n r = V3.smul r n ∧ (getExitPos n V3.zero r).norm = r ∧
    getExitPos V3.zero V3.zero r = V3.zero := by
  have e : getExitPos n V3.zero r = V3.smul r n := by
    simp only [getExitPos, V3.zero, V3.smul, V3.mk.injEq]
    refine ⟨by ring, by ring, by ring⟩
  refine ⟨e, ?_, ?_, ?_⟩
  · simp only [getExitPos, V3.zero, V3.smul, V3.mk.injEq]
    refine ⟨by ring, by ring, by ring⟩
  · rw [e]
    have : (V3.smul r n).normSq = r ^ 2 := by
      have : (V3.smul r n).normSq = r ^ 2 * n.normSq := by simp only [V3.smul, V3.normSq, V3.dot]; ring
      rw [this, hn, mul_one]
    rw [V3.norm, this, Real.sqrt_sq hr]
  · simp [getExitPos, V3.zero]

example : (⟨0, 3/5, 4/5⟩ : V3).normSq = 1 := by simp [V3.normSq, V3.dot]; norm_num

/-! ### C82: sampled directions -/

theorem argmin_spec (n : ℕ) (f : ℕ → ℝ) (hn : 0 < n) : argmin n f < n ∧ (∀ j < n, f (argmin n f) ≤ f j) ∧ ∀ j < argmin n f, f (argmin n f) < f j := by
  have h : ∃ i, i < n ∧ ∀ j < n, f i ≤ f j := by
    obtain ⟨i, hi, hm⟩ := Finset.exists_min_image (Finset.range n) f ⟨0, Finset.mem_range.mpr hn⟩
    exact ⟨i, Finset.mem_range.mp hi, fun j hj => hm j (Finset.mem_range.mpr hj)⟩
  have e : argmin n f = Nat.find h := by unfold argmin; rw [dif_pos h]
  rw [e]
  have hs := Nat.find_spec h
  refine ⟨hs.1, hs.2, fun j hj => ?_⟩
  have := Nat.find_min h hj
  push Not at this
  obtain ⟨j', hj', hlt⟩ := this (by omega)
  exact lt_of_le_of_lt (hs.2 j' hj') hlt

/-- C82.  For every sampled pair of angles the direction returned is that of one of the trajectories, one whose exit position is at least
as close to the sampled point of the sphere as that of any other trajectory; without trajectories it is an error. -/
theorem C82_nearest_direction (theta phi : ℝ) (inter : ℕ → V3) (n : ℕ) (k1 : ℕ → V3) (r : ℝ) :
    (n = 0 → calcDirections theta phi inter n k1 r = .error .valueError) ∧
    (0 < n → ∃ j < n, calcDirections theta phi inter n k1 r = .ok (k1 j) ∧
      ∀ j' < n, (V3.sub (V3.smul r ⟨Real.cos phi * Real.sin theta, Real.sin phi * Real.sin theta, Real.cos theta⟩) (inter j)).norm ≤
        (V3.sub (V3.smul r ⟨Real.cos phi * Real.sin theta, Real.sin phi * Real.sin theta, Real.cos theta⟩) (inter j')).norm) := by
  constructor
  · intro h; simp [calcDirections, h]
  · intro hn
    obtain ⟨h1, h2, _⟩ := argmin_spec n (fun j => Real.sqrt ((r * Real.cos phi * Real.sin theta - (inter j).x) ^ 2 +
      (r * Real.sin phi * Real.sin theta - (inter j).y) ^ 2 + (r * Real.cos theta - (inter j).z) ^ 2)) hn
    refine ⟨_, h1, ?_, fun j' hj' => ?_⟩
    · simp only [calcDirections, if_neg hn.ne']
    · have e : ∀ j, (V3.sub (V3.smul r ⟨Real.cos phi * Real.sin theta, Real.sin phi * Real.sin theta, Real.cos theta⟩) (inter j)).norm =
          Real.sqrt ((r * Real.cos phi * Real.sin theta - (inter j).x) ^ 2 +
      (r * Real.sin phi * Real.sin theta - (inter j).y) ^ 2 + (r * Real.cos theta - (inter j).z) ^ 2) := by
        intro j
        simp only [V3.norm, V3.normSq, V3.dot, V3.sub, V3.smul]
        congr 1; ring
      rw [e, e]
      exact h2 j' hj'

/-! ### C83: the data of the phase function -/

/-- the trajectory left the sphere after scattering, through the front or the back -/
def ExitsScattered (ri ti : Fin nt → ℕ) (j : Fin nt) : Prop := 0 < ri j ∨ 1 < ti j

theorem nuOf_eq {c : ℝ} (h0 : -1 ≤ c) (h1 : c ≤ 1) : nuOf c = (c + 1) / 2 := by
  unfold nuOf; rw [Real.cos_arccos h0 h1]

theorem filter_map_eq {α : Type} (l : List α) (f : α → ℝ) (p : α → Prop) [DecidablePred p] (hf : ∀ a, p a ↔ f a ≠ 0) :
    ((l.map f).filter fun v => v ≠ 0) = (l.filter (fun a => p a)).map f := by
  rw [List.filter_map]
  congr 1
  apply List.filter_congr
  intro a _
  simp [hf a]

/-- the data for the density estimate: one value `nu` for each trajectory in `E`, mirrored at 0 and at 1, with its weight -/
def mirroredExit (E : List (Fin nt)) (nu w : Fin nt → ℝ) : Option (List ℝ × List ℝ) :=
  if E = [] then none else some (E.map (fun j => -nu j) ++ E.map nu ++ E.map (fun j => 2 - nu j), E.map w ++ E.map w ++ E.map w)

theorem kdeData_eq (E : List (Fin nt)) (nu w : Fin nt → ℝ) : kdeData (E.map nu) (E.map w) = .ok (mirroredExit E nu w) := by
  unfold kdeData mirroredExit
  by_cases h : E = []
  · simp [h]
  · rw [if_neg (by simpa using h), if_pos (by simp), if_neg h]
    simp only [List.map_map]
    congr 5
    funext j
    show -nu j + 2 = 2 - nu j
    ring

theorem ind_cases (ri ti : Fin nt → ℕ) (j : Fin nt) :
    (ind (ri j) = if 0 < ri j then 1 else 0) ∧ (ind (transScat ti j) = if 1 < ti j then 1 else 0) ∧
    (0 < transScat ti j ↔ 1 < ti j) ∧ (1 < ti j → transScat ti j = ti j) := by
  unfold ind transScat
  refine ⟨?_, ?_, ?_, ?_⟩
  · by_cases h : ri j = 0 <;> simp [h, Nat.pos_iff_ne_zero]
  · by_cases h1 : ti j = 1
    · simp [h1]
    · by_cases h : ti j = 0
      · simp [h]
      · have : 1 < ti j := by omega
        simp [h1, h, this]
  · by_cases h1 : ti j = 1
    · simp [h1]
    · rw [if_neg h1]; omega
  · intro h; rw [if_neg (by omega)]

open Classical in
/-- C83, exit directions given (all but exits of weight 0 or at right angles).  For a batch in which a trajectory leaves at most once and every
trajectory that leaves after scattering carries light and has a direction with `kz ≠ 0`, the phase function is estimated from one value
`(kz + 1)/2` per such trajectory, with the light it carries, and nothing else. -/
theorem C83_phase_data_kz_partial (kz : ℕ → Fin nt → ℝ) (refl trans : Fin nt → ℝ) (ri ti : Fin nt → ℕ)
    (hex : ∀ j, ri j = 0 ∨ ti j = 0) (hkz : ∀ e j, -1 ≤ kz e j ∧ kz e j ≤ 1)
    (hne : ∀ j, ExitsScattered ri ti j → kz (ri j + ti j - 1) j ≠ 0 ∧ (if 0 < ri j then refl j else trans j) ≠ 0) :
    pdfDataKz kz refl trans ri ti = .ok (mirroredExit ((List.finRange nt).filter fun j => ExitsScattered ri ti j)
      (fun j => (kz (ri j + ti j - 1) j + 1) / 2) (fun j => if 0 < ri j then refl j else trans j)) := by
  have hkzOf : ∀ j, kzOf kz ri ti j = if ExitsScattered ri ti j then kz (ri j + ti j - 1) j else 0 := by
    intro j
    obtain ⟨_, _, h3, h4⟩ := ind_cases ri ti j
    unfold kzOf ExitsScattered
    rcases hex j with h | h
    · by_cases h1 : 1 < ti j
      · simp [h, h4 h1, h1, show 0 < ti j by omega]
      · have : transScat ti j = 0 := by have := mt h3.mp h1; omega
        simp [h, this, h1]
    · by_cases h1 : 0 < ri j
      · have : transScat ti j = 0 := by simp [transScat, h]
        simp [this, h, h1]
      · have : transScat ti j = 0 := by simp [transScat, h]
        simp [this, h, h1]
  have hw : ∀ j, weightOf refl trans ri ti j = if ExitsScattered ri ti j then (if 0 < ri j then refl j else trans j) else 0 := by
    intro j
    obtain ⟨h1, h2, _, _⟩ := ind_cases ri ti j
    unfold weightOf ExitsScattered
    rw [h1, h2]
    rcases hex j with h | h
    · by_cases h' : 1 < ti j <;> simp [h, h']
    · by_cases h' : 0 < ri j <;> simp [h, h']
  have e1 : (kzKept kz ri ti).map nuOf = ((List.finRange nt).filter fun j => ExitsScattered ri ti j).map (fun j => (kz (ri j + ti j - 1) j + 1) / 2) := by
    unfold kzKept
    rw [filter_map_eq _ _ (ExitsScattered ri ti), List.map_map]
    · refine List.map_congr_left fun j hj => ?_
      have hj : ExitsScattered ri ti j := by simpa using (List.mem_filter.mp hj).2
      simp only [Function.comp, hkzOf j, if_pos hj]
      exact nuOf_eq (hkz _ _).1 (hkz _ _).2
    · intro j
      rw [hkzOf j]
      by_cases h : ExitsScattered ri ti j
      · simp [h, (hne j h).1]
      · simp [h]
  have e2 : weights refl trans ri ti = ((List.finRange nt).filter fun j => ExitsScattered ri ti j).map (fun j => if 0 < ri j then refl j else trans j) := by
    unfold weights
    rw [filter_map_eq _ _ (ExitsScattered ri ti)]
    · refine List.map_congr_left fun j hj => ?_
      have hj : ExitsScattered ri ti j := by simpa using (List.mem_filter.mp hj).2
      rw [hw j, if_pos hj]
    · intro j
      rw [hw j]
      by_cases h : ExitsScattered ri ti j
      · simp only [h, if_true, true_iff]; exact (hne j h).2
      · simp [h]
  unfold pdfDataKz
  rw [e1, e2, kdeData_eq]

open Classical in
/-- C83, exit positions (all but exits on the equator).  For a batch in which a trajectory leaves at most once and no trajectory that carries
light leaves at height 0, the phase function is estimated from one value `(z/r + 1)/2` per trajectory that leaves after scattering and
carries light, with the light it carries. -/
theorem C83_phase_data_z_partial (z : Fin nt → ℝ) (r : ℝ) (hr : 0 < r) (refl trans : Fin nt → ℝ) (ri ti : Fin nt → ℕ)
    (hex : ∀ j, ri j = 0 ∨ ti j = 0) (hz : ∀ j, -r ≤ z j ∧ z j ≤ r)
    (hne : ∀ j, ExitsScattered ri ti j → (if 0 < ri j then refl j else trans j) ≠ 0 → z j ≠ 0) :
    pdfDataZ z r refl trans ri ti = .ok (mirroredExit
      ((List.finRange nt).filter fun j => ExitsScattered ri ti j ∧ (if 0 < ri j then refl j else trans j) ≠ 0)
      (fun j => (z j / r + 1) / 2) (fun j => if 0 < ri j then refl j else trans j)) := by
  have hw : ∀ j, weightOf refl trans ri ti j = if ExitsScattered ri ti j then (if 0 < ri j then refl j else trans j) else 0 := by
    intro j
    obtain ⟨h1, h2, _, _⟩ := ind_cases ri ti j
    unfold weightOf ExitsScattered
    rw [h1, h2]
    rcases hex j with h | h
    · by_cases h' : 1 < ti j <;> simp [h, h']
    · by_cases h' : 0 < ri j <;> simp [h, h']
  have hzo : ∀ j, zOf z refl trans ri ti j = if ExitsScattered ri ti j ∧ (if 0 < ri j then refl j else trans j) ≠ 0 then z j else 0 := by
    intro j
    obtain ⟨h1, h2, _, _⟩ := ind_cases ri ti j
    unfold zOf ExitsScattered
    rw [h1, h2]
    rcases hex j with h | h
    · by_cases h' : 1 < ti j <;> by_cases ht : trans j = 0 <;> simp [h, h', ht]
    · by_cases h' : 0 < ri j <;> by_cases ht : refl j = 0 <;> simp [h, h', ht]
  have e1 : (zKept z refl trans ri ti).map (fun v => nuOf (v / r)) =
      ((List.finRange nt).filter fun j => ExitsScattered ri ti j ∧ (if 0 < ri j then refl j else trans j) ≠ 0).map (fun j => (z j / r + 1) / 2) := by
    unfold zKept
    rw [filter_map_eq _ _ (fun j => ExitsScattered ri ti j ∧ (if 0 < ri j then refl j else trans j) ≠ 0), List.map_map]
    · refine List.map_congr_left fun j hj => ?_
      have hj : ExitsScattered ri ti j ∧ (if 0 < ri j then refl j else trans j) ≠ 0 := by simpa using (List.mem_filter.mp hj).2
      simp only [Function.comp, hzo j, if_pos hj]
      refine nuOf_eq ?_ ?_
      · rw [le_div_iff₀ hr]; linarith [(hz j).1]
      · rw [div_le_one hr]; exact (hz j).2
    · intro j
      rw [hzo j]
      by_cases h : ExitsScattered ri ti j ∧ (if 0 < ri j then refl j else trans j) ≠ 0
      · rw [if_pos h]; exact ⟨fun _ => hne j h.1 h.2, fun _ => h⟩
      · rw [if_neg h]; simp [h]
  have e2 : weights refl trans ri ti =
      ((List.finRange nt).filter fun j => ExitsScattered ri ti j ∧ (if 0 < ri j then refl j else trans j) ≠ 0).map (fun j => if 0 < ri j then refl j else trans j) := by
    unfold weights
    rw [filter_map_eq _ _ (fun j => ExitsScattered ri ti j ∧ (if 0 < ri j then refl j else trans j) ≠ 0)]
    · refine List.map_congr_left fun j hj => ?_
      have hj : ExitsScattered ri ti j ∧ (if 0 < ri j then refl j else trans j) ≠ 0 := by simpa using (List.mem_filter.mp hj).2
      rw [hw j, if_pos hj.1]
    · intro j
      rw [hw j]
      by_cases h : ExitsScattered ri ti j
      · simp only [h, if_true, true_and]
      · simp [h]
  unfold pdfDataZ
  rw [e1, e2, kdeData_eq]

/-- C83, refuted: with exit directions given, one trajectory that leaves without light (all of it internally reflected) beside one that
carries light makes the whole estimate fail: there is a datum without a weight.  With exit positions, a trajectory that leaves exactly
on the equator does the same: there is a weight without a datum. -/
theorem C83_phase_data_refuted :
    pdfDataKz (nt := 2) (fun _ _ => 1) ![0, 1] ![0, 0] ![1, 1] ![0, 0] = .error .valueError ∧
    pdfDataZ (nt := 2) ![0, 1] 1 ![1, 1] ![0, 0] ![1, 1] ![0, 0] = .error .valueError := by
  constructor
  · have e1 : kzKept (nt := 2) (fun _ _ => 1) ![1, 1] ![0, 0] = [1, 1] := by
      simp [kzKept, kzOf, transScat, List.finRange_succ]
    have e2 : weights (nt := 2) ![0, 1] ![0, 0] ![1, 1] ![0, 0] = [1] := by
      simp [weights, weightOf, transScat, ind, List.finRange_succ]
    simp [pdfDataKz, e1, e2, kdeData]
  · have e1 : zKept (nt := 2) ![0, 1] ![1, 1] ![0, 0] ![1, 1] ![0, 0] = [1] := by
      simp [zKept, zOf, transScat, ind, List.finRange_succ]
    have e2 : weights (nt := 2) ![1, 1] ![0, 0] ![1, 1] ![0, 0] = [1, 1] := by
      simp [weights, weightOf, transScat, ind, List.finRange_succ]
    simp [pdfDataZ, e1, e2, kdeData]

/-- C83.  Whatever positive density was estimated, the phase function returned is a list of 200 positive numbers that add up to 1, in the
ratio of the estimated densities. -/
theorem C83_phase_function_normalised_partial (kde : ℝ → ℝ) (h : ∀ v, 0 < kde v) :
    ∃ p : Fin 200 → ℝ, (∀ i, pdfArray kde i = fin (p i)) ∧ (∀ i, 0 < p i) ∧ ∑ i, p i = 1 ∧
      ∀ i j : Fin 200, p i * kde ((Real.cos (linspace 0.01 Real.pi 200 j) + 1) / 2) = p j * kde ((Real.cos (linspace 0.01 Real.pi 200 i) + 1) / 2) := by
  have hs : 0 < ∑ k : Fin 200, kde ((Real.cos (linspace 0.01 Real.pi 200 k) + 1) / 2) := Finset.sum_pos (fun k _ => h _) ⟨0, Finset.mem_univ _⟩
  refine ⟨fun i => kde ((Real.cos (linspace 0.01 Real.pi 200 i) + 1) / 2) / ∑ k : Fin 200, kde ((Real.cos (linspace 0.01 Real.pi 200 k) + 1) / 2),
    fun i => ?_, fun i => div_pos (h _) hs, ?_, fun i j => ?_⟩
  · simp only [pdfArray, fin_div _ hs.ne']
  · rw [← Finset.sum_div]; exact div_self hs.ne'
  · ring

/-- Non-vacuity of C83: a reflected, a transmitted and a trapped trajectory. -/
example : (∀ j : Fin 3, (![2, 0, 0] : Fin 3 → ℕ) j = 0 ∨ (![0, 3, 0] : Fin 3 → ℕ) j = 0) ∧ ExitsScattered (![2, 0, 0] : Fin 3 → ℕ) ![0, 3, 0] 1 := by
  refine ⟨fun j => by fin_cases j <;> simp, Or.inr (by simp)⟩

/-- Non-vacuity of C82: with two exit positions at the poles, the direction at the pole sampled is returned. -/
example : calcDirections 0 0 (fun j => if j = 0 then ⟨0, 0, -1⟩ else ⟨0, 0, 1⟩) 2 (fun j => if j = 0 then ⟨1, 0, 0⟩ else ⟨0, 1, 0⟩) 1
    = .ok ⟨0, 1, 0⟩ := by
  obtain ⟨j, hj, h1, h2⟩ := (C82_nearest_direction 0 0 (fun j => if j = 0 then ⟨0, 0, -1⟩ else ⟨0, 0, 1⟩) 2
    (fun j => if j = 0 then ⟨1, 0, 0⟩ else ⟨0, 1, 0⟩) 1).2 two_pos
  have : j = 1 := by
    have := h2 1 (by norm_num)
    interval_cases j
    · exfalso
      simp only [V3.norm, V3.normSq, V3.sub, V3.smul, V3.dot] at this
      norm_num at this
      have : (0:ℝ) < √4 := by positivity
      linarith
    · rfl
  subst this
  simpa using h1

end Verif.Props
