import Verif.Model.Units
import Verif.Props.Spheres2

/-!
# C132: the sizes sampled for a polydisperse powder do not depend on the unit
-/

namespace Verif.Props
open Verif.Units Verif.Spheres Verif.Traj XF
open Verif (XF PyErr)

variable {nt : ℕ}

private theorem lin600 (a b : ℝ) (i : ℕ) : linspace a b 600 i = a + i * ((b - a) / 599) := by
  unfold linspace
  norm_num

/-- C132 is false of `calc_diam_list`, which looks for diameters from 1 up, in whatever unit the mean is given: for every mean of at most
half a unit it returns only diameters of at least twice the mean; and for the same mean of 200 nanometres it returns other diameters when
it is given in micrometres. -/
theorem C132_diam_list_refuted :
    (∀ (num_diam : ℕ) (mean : Len) (pdi : ℝ) (l : List Len), 0 < mean.mag → mean.mag ≤ 1 / 2 → 0 < mean.unit →
      calcDiamListQ num_diam mean pdi = .ok l → ∀ d ∈ l, 2 * mean.value ≤ d.value) ∧
    (∀ num_diam : ℕ, ∃ l l', calcDiamListQ num_diam ⟨0.2, 1e-6⟩ 0.5 = .ok l ∧ calcDiamListQ num_diam ⟨200, 1e-9⟩ 0.5 = .ok l' ∧
      l.map Len.value ≠ l'.map Len.value) := by
  have first : ∀ (num_diam : ℕ) (mean : Len) (pdi : ℝ) (l : List Len), 0 < mean.mag → mean.mag ≤ 1 / 2 → 0 < mean.unit →
      calcDiamListQ num_diam mean pdi = .ok l → ∀ d ∈ l, 2 * mean.value ≤ d.value := by
    intro num mean pdi l h0 h1 hu hl d hd
    by_cases hp : pdi = 0
    · simp [calcDiamListQ, calcDiamList, hp, Except.map] at hl
    obtain ⟨l0, hl0, -, -, -, hmem, -⟩ := C66_diam_list_partial num mean.mag pdi hp
    simp only [calcDiamListQ, hl0, Except.map, Except.ok.injEq] at hl
    subst hl
    obtain ⟨d0, hd0, rfl⟩ := List.mem_map.mp hd
    obtain ⟨i, hi, rfl⟩ := hmem d0 hd0
    simp only [Len.value]
    rw [lin600, ← mul_assoc]
    refine mul_le_mul_of_nonneg_right ?_ hu.le
    have hi' : (i : ℝ) ≤ 599 := by exact_mod_cast (by omega : i ≤ 599)
    have : (599 - (i : ℝ)) * (1 - 2 * mean.mag) ≥ 0 := mul_nonneg (by linarith) (by linarith)
    linarith
  refine ⟨first, fun num => ?_⟩
  obtain ⟨l0, hl0, -, -, -, -, -⟩ := C66_diam_list_partial num 0.2 0.5 (by norm_num)
  obtain ⟨l1, hl1, -, -, -, hmem, d, hd, hmax⟩ := C66_diam_list_partial num 200 0.5 (by norm_num)
  have e0 : calcDiamListQ num ⟨0.2, 1e-6⟩ 0.5 = .ok (l0.map fun d => ⟨d, 1e-6⟩) := by simp only [calcDiamListQ, hl0, Except.map]
  have e1 : calcDiamListQ num ⟨200, 1e-9⟩ 0.5 = .ok (l1.map fun d => ⟨d, 1e-9⟩) := by simp only [calcDiamListQ, hl1, Except.map]
  refine ⟨_, _, e0, e1, fun heq => ?_⟩
  have hge := first num ⟨0.2, 1e-6⟩ 0.5 _ (by norm_num) (by norm_num) (by norm_num) e0
  have hdm : d * 1e-9 ∈ (l1.map fun d => (⟨d, 1e-9⟩ : Len)).map Len.value := by
    rw [List.map_map]
    exact List.mem_map.mpr ⟨d, hd, rfl⟩
  rw [← heq] at hdm
  obtain ⟨q, hq, hqd⟩ := List.mem_map.mp hdm
  have hq2 := hge q hq
  rw [hqd] at hq2
  simp only [Len.value] at hq2
  have hd4 : 400 ≤ d := by
    norm_num at hq2 ⊢
    linarith
  obtain ⟨i, hi, rfl⟩ := hmem d hd
  have hi' : i = 599 := by
    by_contra hne
    have h2 : (i : ℝ) ≤ 598 := by exact_mod_cast (by omega : i ≤ 598)
    rw [lin600] at hd4
    norm_num at hd4
    linarith
  have h3 := hmax 299 (by norm_num)
  rw [hi'] at h3
  have hw : widthOf 0.5 = 3 := by norm_num [widthOf]
  have ea : linspace 1 (2 * 200) 600 599 = 400 := by rw [lin600]; norm_num
  have eb : linspace 1 (2 * 200) 600 299 = 1 + 299 * (399 / 599) := by rw [lin600]; norm_num
  rw [hw, ea, eb] at h3
  simp only [Spheres.sizeDistribution, SingleScat.rawDistribution] at h3
  rw [if_pos (by norm_num), if_pos (by norm_num)] at h3
  set b : ℝ := 1 + 299 * (399 / 599) with hb
  have hb0 : 200 ≤ b := by rw [hb]; norm_num
  have hb1 : b ≤ 201 := by rw [hb]; norm_num
  have hG : 0 < Real.Gamma (3 + 1) := Real.Gamma_pos_of_pos (by norm_num)
  have hA : (0 : ℝ) < ((3 + 1) / 200) ^ (3 + 1 : ℝ) := by positivity
  have h4 : b ^ (3 : ℝ) * Real.exp (-b / 200 * (3 + 1)) ≤ 400 ^ (3 : ℝ) * Real.exp (-400 / 200 * (3 + 1)) := by
    have e : ∀ x : ℝ, ((3 + 1 : ℝ) / 200) ^ (3 + 1 : ℝ) * x ^ (3 : ℝ) / Real.Gamma (3 + 1) * Real.exp (-x / 200 * (3 + 1)) =
        ((3 + 1 : ℝ) / 200) ^ (3 + 1 : ℝ) / Real.Gamma (3 + 1) * (x ^ (3 : ℝ) * Real.exp (-x / 200 * (3 + 1))) := fun x => by ring
    rw [e, e] at h3
    exact le_of_mul_le_mul_left h3 (by positivity)
  have h5 : (200 : ℝ) ^ (3 : ℝ) ≤ b ^ (3 : ℝ) := Real.rpow_le_rpow (by norm_num) hb0 (by norm_num)
  have h6 : Real.exp (-(4.02 : ℝ)) ≤ Real.exp (-b / 200 * (3 + 1)) := Real.exp_le_exp.mpr (by linarith)
  have e8 : Real.exp (-400 / 200 * (3 + 1)) = Real.exp (-4.02) * Real.exp (-3.98) := by rw [← Real.exp_add]; norm_num
  have h7 : Real.exp (-3.98 : ℝ) < 1 / 8 := by
    rw [Real.exp_neg, inv_eq_one_div]
    refine one_div_lt_one_div_of_lt (by norm_num) ?_
    have : (2 : ℝ) < Real.exp 1 := by have := Real.add_one_lt_exp (one_ne_zero' ℝ); linarith
    calc (8 : ℝ) = 2 ^ 3 := by norm_num
      _ < Real.exp 1 ^ 3 := by gcongr
      _ = Real.exp 3 := by rw [← Real.exp_nat_mul]; norm_num
      _ ≤ Real.exp 3.98 := Real.exp_le_exp.mpr (by norm_num)
  have e9 : (400 : ℝ) ^ (3 : ℝ) = 8 * 200 ^ (3 : ℝ) := by norm_num
  have hp : 0 < Real.exp (-(4.02 : ℝ)) := Real.exp_pos _
  have h2p : (0 : ℝ) < 200 ^ (3 : ℝ) := by positivity
  have h8 : 200 ^ (3 : ℝ) * Real.exp (-(4.02 : ℝ)) ≤ b ^ (3 : ℝ) * Real.exp (-b / 200 * (3 + 1)) := by gcongr
  rw [e8, e9] at h4
  have h9 : 8 * 200 ^ (3 : ℝ) * (Real.exp (-4.02) * Real.exp (-3.98)) < 200 ^ (3 : ℝ) * Real.exp (-(4.02 : ℝ)) := by
    have : 0 < 200 ^ (3 : ℝ) * Real.exp (-(4.02 : ℝ)) := by positivity
    nlinarith
  linarith

private theorem linspace_scale (c a b : ℝ) (n i : ℕ) : linspace (c * a) (c * b) n i = c * linspace a b n i := by
  unfold linspace
  split <;> ring

private theorem sort_map_scale {c : ℝ} (hc : 0 < c) (s : Finset ℝ) :
    ((s.image (c * ·)).sort (· ≤ ·)) = (s.sort (· ≤ ·)).map (c * ·) := by
  have hm : StrictMono (fun x : ℝ => c * x) := fun x y h => mul_lt_mul_of_pos_left h hc
  refine List.Perm.eq_of_pairwise (le := (· ≤ ·)) (fun a b _ _ h1 h2 => le_antisymm h1 h2) (Finset.pairwise_sort _ _) ?_ ?_
  · exact (List.pairwise_map).mpr ((Finset.pairwise_sort _ _).imp fun h => hm.monotone h)
  · refine (List.perm_ext_iff_of_nodup (Finset.sort_nodup _ _) ((Finset.sort_nodup _ _).map hm.injective)).mpr fun a => ?_
    simp

/-- C132, what holds (a): with `equal_spacing=True` the list is the same diameters in every unit. -/
theorem C132_equal_spacing_partial (num_diam : ℕ) (q q' : Len) (hu : 0 < q.unit) (hu' : 0 < q'.unit) (h : q.value = q'.value) :
    (equalDiamListQ num_diam q).map Len.value = (equalDiamListQ num_diam q').map Len.value := by
  have key : ∀ q : Len, 0 < q.unit → (equalDiamListQ num_diam q).map Len.value = equalDiamList num_diam q.value := by
    intro q hu
    simp only [equalDiamListQ, List.map_map]
    have e : (Len.value ∘ fun d => (⟨d, q.unit⟩ : Len)) = (q.unit * ·) := by
      funext d
      simp only [Function.comp, Len.value, mul_comm]
    rw [e]
    unfold equalDiamList
    simp only [Len.value]
    set half := (pyRound (((num_diam : ℝ) + 1) / 2)).toNat
    have e1 : ∀ a b : ℝ, (List.range half).map (linspace (q.unit * a) (q.unit * b) half) =
        ((List.range half).map (linspace a b half)).map (q.unit * ·) := by
      intro a b
      rw [List.map_map]
      exact List.map_congr_left fun i _ => linspace_scale _ _ _ _ _
    rw [show q.mag * q.unit / 2 / 100 = q.unit * (q.mag / 2 / 100) by ring, show q.mag * q.unit / 2 = q.unit * (q.mag / 2) by ring,
      show 2 * (q.unit * (q.mag / 2)) = q.unit * (2 * (q.mag / 2)) by ring, e1, e1, ← List.map_append]
    have e2 : ∀ l : List ℝ, (l.map (q.unit * ·)).toFinset = l.toFinset.image (q.unit * ·) := by
      intro l
      ext a
      simp
    rw [e2, sort_map_scale hu, List.map_map, List.map_map]
    refine List.map_congr_left fun r _ => ?_
    simp only [Function.comp]
    ring
  rw [key q hu, key q' hu', h]

private theorem ratio_scale {n : ℕ} {K : ℝ} (hK : 0 < K) (f : Fin n → ℝ) (i : Fin n) :
    fin (K * f i) / fin (∑ k, K * f k) = fin (f i) / fin (∑ k, f k) := by
  rw [← Finset.mul_sum]
  by_cases h : ∑ k, f k = 0
  · rw [h, mul_zero]
    change XF.div _ _ = XF.div _ _
    simp only [XF.div, if_true, infOfSign, mul_pos_iff_of_pos_left hK]
    congr 2
    rw [← neg_pos, ← mul_neg, mul_pos_iff_of_pos_left hK, neg_pos]
  · rw [fin_div _ (mul_ne_zero hK.ne' h), fin_div _ h, fin_inj, mul_div_mul_left _ _ hK.ne']

/-- C132, what holds (b): `sample_diams` samples the same diameters with the same probabilities in whatever units the list of diameters
(unit `u`) and the mean (unit `v`) are given. -/
theorem C132_sample_diams_partial {n : ℕ} (pdi : ℝ) (d : Fin n → ℝ) (mean u v : ℝ) (draw : ℕ → Fin nt → Fin n)
    (hd : ∀ i, 0 < d i) (hm : 0 < mean) (hu : 0 < u) (hv : 0 < v) :
    sampleDiamsQ pdi (fun i => d i / u) u ⟨mean / v, v⟩ draw = (sampleDiams pdi d mean draw).map fun s ev tr => s ev tr / u := by
  unfold sampleDiamsQ sampleDiams
  by_cases hp : pdi = 0
  · rw [if_pos hp, if_pos hp]; rfl
  rw [if_neg hp, if_neg hp]
  have ht : 0 < widthOf pdi + 1 := by
    have : widthOf pdi + 1 = 1 / pdi ^ 2 := by unfold widthOf; field_simp; ring
    rw [this]; positivity
  set t := widthOf pdi
  obtain ⟨K, hK, hpdf⟩ : ∃ K : ℝ, 0 < K ∧ ∀ i, sizeDistributionQ ⟨d i / u, u⟩ ⟨mean / v, v⟩ t = K * Spheres.sizeDistribution mean t (d i) := by
    by_cases h100 : t ≤ 100
    · refine ⟨v ^ (t + 1) / u ^ t, by positivity, fun i => ?_⟩
      simp only [sizeDistributionQ, Spheres.sizeDistribution, SingleScat.rawDistribution, if_pos h100, Len.value]
      rw [div_mul_cancel₀ _ hu.ne', div_mul_cancel₀ _ hv.ne', Real.div_rpow (hd i).le hu.le,
        show (t + 1) / (mean / v) = (t + 1) / mean * v by field_simp, Real.mul_rpow (by positivity) hv.le]
      field_simp
    · refine ⟨u, hu, fun i => ?_⟩
      have hs : 0 < Real.sqrt (t + 1) := Real.sqrt_pos.mpr ht
      have h1 := hd i
      simp only [sizeDistributionQ, Spheres.sizeDistribution, SingleScat.rawDistribution, if_neg h100, Len.to]
      have e1 : -(d i / u - mean / v * v / u) ^ 2 / (2 * (d i / u / Real.sqrt (t + 1)) ^ 2) =
          -(d i - mean) ^ 2 / (2 * (d i / Real.sqrt (t + 1)) ^ 2) := by
        field_simp
      have e2 : Real.sqrt (2 * Real.pi * (d i / u / Real.sqrt (t + 1)) ^ 2) = Real.sqrt (2 * Real.pi * (d i / Real.sqrt (t + 1)) ^ 2) / u := by
        rw [show 2 * Real.pi * (d i / u / Real.sqrt (t + 1)) ^ 2 = 2 * Real.pi * (d i / Real.sqrt (t + 1)) ^ 2 / u ^ 2 by field_simp,
          Real.sqrt_div' _ (by positivity), Real.sqrt_sq hu.le]
      rw [e1, e2]
      have := Real.sqrt_pos.mpr (show 0 < 2 * Real.pi * (d i / Real.sqrt (t + 1)) ^ 2 by positivity)
      field_simp
  have e : (fun i => fin (sizeDistributionQ ⟨d i / u, u⟩ ⟨mean / v, v⟩ t) / fin (∑ k, sizeDistributionQ ⟨d k / u, u⟩ ⟨mean / v, v⟩ t)) =
      fun i => fin (Spheres.sizeDistribution mean t (d i)) / fin (∑ k, Spheres.sizeDistribution mean t (d k)) := by
    funext i
    simp only [hpdf]
    exact ratio_scale hK (fun i => Spheres.sizeDistribution mean t (d i)) i
  dsimp only
  rw [e]
  split <;> rfl

/-- cases of C132: a mean of 0.2 micrometres is one of 200 nanometres, and lists in both units exist; three diameters of 0.1, 0.2 and 0.3
micrometres with a mean of 200 nanometres are sampled -/
example : (Len.value ⟨0.2, 1e-6⟩ = Len.value ⟨200, 1e-9⟩) ∧ (equalDiamListQ 3 ⟨0.2, 1e-6⟩).length = 3 ∧
    ∃ s, sampleDiamsQ (nt := 1) (n := 3) 0.5 (fun i => (![0.1, 0.2, 0.3] i : ℝ) / 1) 1 ⟨0.2 / 0.001, 0.001⟩ (fun _ _ => 1) = .ok s := by
  refine ⟨by norm_num [Len.value], ?_, ?_⟩
  · have := (C66_equal_spacing_partial 1 (0.2 : ℝ) (by norm_num) le_rfl).1
    simpa [equalDiamListQ] using this
  · rw [C132_sample_diams_partial 0.5 ![0.1, 0.2, 0.3] 0.2 1 0.001 (fun _ _ => 1) (fun i => by fin_cases i <;> norm_num) (by norm_num)
      one_pos (by norm_num)]
    have := (C67_sample_diams (nt := 1) (n := 3) 0.5 ![0.1, 0.2, 0.3] 0.2 (fun _ _ => 1) (by norm_num) (by norm_num) (by norm_num)
      (fun i => by fin_cases i <;> norm_num))
    obtain ⟨s, -, hs, -⟩ := this
    rw [hs]
    exact ⟨_, rfl⟩

end Verif.Props
