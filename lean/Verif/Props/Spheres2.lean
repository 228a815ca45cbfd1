import Verif.Model.Spheres
import Verif.Props.Spheres
import Verif.Props.SingleScat3
import Mathlib.Analysis.Real.Pi.Bounds

/-!
# C66, C67, C80: polydisperse structured spheres
-/

namespace Verif.Props
open Verif.Spheres Verif.XF
open Verif (XF PyErr)
open Verif.Traj (linspace choiceOk Drawn probTheta pyRound)

variable {nt : ℕ}

/-! ### C66: the list of diameters -/

theorem pickTwo_ok (rad pdf : ℕ → ℝ) (f : ℕ × ℕ) :
    ∃ i1 i2, i1 < 600 ∧ i2 < 600 ∧ pickTwo 600 rad pdf f = .ok [rad i1, rad i2] := by
  obtain ⟨h1, _⟩ := argmin_spec 300 (fun i => |pdf i - (f.1 : ℝ) / f.2 * (Finset.range 600).fold max (pdf 0) pdf|) (by norm_num)
  obtain ⟨h2, _⟩ := argmin_spec 300 (fun i => |pdf (300 + i) - (f.1 : ℝ) / f.2 * (Finset.range 600).fold max (pdf 0) pdf|) (by norm_num)
  refine ⟨_, 300 + argmin 300 (fun i => |pdf (300 + i) - (f.1 : ℝ) / f.2 * (Finset.range 600).fold max (pdf 0) pdf|),
    lt_trans h1 (by norm_num), by omega, ?_⟩
  unfold pickTwo
  simp only [show 600 / 2 = 300 by norm_num, show 600 - 300 = 300 by norm_num]
  rw [if_pos (by omega)]

theorem pickLoop_ok (rad pdf : ℕ → ℝ) (n : ℕ) : ∀ (f : ℕ × ℕ) (acc : List ℝ), (∀ x ∈ acc, ∃ i < 600, x = rad i) →
    ∃ l, pickLoop 600 rad pdf n f acc = .ok l ∧ l.length = acc.length + 2 * n ∧ (∀ x ∈ l, ∃ i < 600, x = rad i) ∧ ∀ x ∈ acc, x ∈ l := by
  induction n with
  | zero => intro f acc h; exact ⟨acc, rfl, by simp, h, fun x hx => hx⟩
  | succ n ih =>
    intro f acc h
    obtain ⟨i1, i2, h1, h2, e⟩ := pickTwo_ok rad pdf f
    obtain ⟨l, hl, hlen, hm, hacc⟩ := ih (nextFraction f) (acc ++ [rad i1, rad i2]) (by
      intro x hx
      rcases List.mem_append.mp hx with hx | hx
      · exact h x hx
      · simp only [List.mem_cons, List.not_mem_nil, or_false] at hx
        rcases hx with rfl | rfl
        · exact ⟨i1, h1, rfl⟩
        · exact ⟨i2, h2, rfl⟩)
    refine ⟨l, ?_, ?_, hm, fun x hx => hacc x (List.mem_append_left _ hx)⟩
    · simp only [pickLoop, e, bind, Except.bind]; exact hl
    · rw [hlen]; simp; ring

/-- C66, spacing by the width of the distribution (600 points, the default).  For every polydispersity index other than 0 and every number of
diameters, `2 (num_diam / 2) + 1` diameters are returned in non-decreasing order: as many as asked for when that number is odd; all lie
on the grid of 600 diameters from 1 to twice the mean, and one of them is where the distribution is largest on that grid. -/
theorem C66_diam_list_partial (num_diam : ℕ) (mean pdi : ℝ) (hp : pdi ≠ 0) :
    ∃ l, calcDiamList num_diam mean pdi 600 = .ok l ∧ l.length = 2 * (num_diam / 2) + 1 ∧ (num_diam % 2 = 1 → l.length = num_diam) ∧
      l.Pairwise (· ≤ ·) ∧ (∀ d ∈ l, ∃ i < 600, d = linspace 1 (2 * mean) 600 i) ∧
      ∃ d ∈ l, ∀ i < 600, Spheres.sizeDistribution mean (widthOf pdi) (linspace 1 (2 * mean) 600 i) ≤ Spheres.sizeDistribution mean (widthOf pdi) d := by
  have e4 : 4 * (mean / 2) = 2 * mean := by ring
  have e2 : 2 * (mean / 2) = mean := by ring
  obtain ⟨hi, hmax, _⟩ := argmin_spec 600 (fun i => -Spheres.sizeDistribution mean (widthOf pdi) (linspace 1 (2 * mean) 600 i)) (by norm_num)
  set m := argmin 600 (fun i => -Spheres.sizeDistribution mean (widthOf pdi) (linspace 1 (2 * mean) 600 i)) with hm
  obtain ⟨l, hl, hlen, hmem, hacc⟩ := pickLoop_ok (fun i => linspace 1 (2 * mean) 600 i / 2)
    (fun i => Spheres.sizeDistribution mean (widthOf pdi) (linspace 1 (2 * mean) 600 i)) (num_diam / 2) (1, 2)
    [linspace 1 (2 * mean) 600 m / 2] (by intro x hx; rw [List.mem_singleton] at hx; exact ⟨m, hi, hx⟩)
  refine ⟨(l.insertionSort (· ≤ ·)).map fun r => 2 * r, ?_, ?_, ?_, ?_, ?_, ?_⟩
  · unfold calcDiamList
    simp only [if_neg hp, e4, e2, ← hm, hl, bind, Except.bind, pure, Except.pure]
  · simp [hlen]; ring
  · intro hodd; simp [hlen]; omega
  · rw [List.pairwise_map]
    exact (List.pairwise_insertionSort (· ≤ ·) l).imp fun h => by linarith
  · intro d hd
    obtain ⟨x, hx, rfl⟩ := List.mem_map.mp hd
    obtain ⟨i, hi, rfl⟩ := hmem x ((List.mem_insertionSort _).mp hx)
    exact ⟨i, hi, by ring⟩
  · refine ⟨2 * (linspace 1 (2 * mean) 600 m / 2), List.mem_map.mpr ⟨_, (List.mem_insertionSort _).mpr (hacc _ (by simp)), rfl⟩, fun i hi => ?_⟩
    have := hmax i hi
    simp only [neg_le_neg_iff] at this
    rw [show 2 * (linspace 1 (2 * mean) 600 m / 2) = linspace 1 (2 * mean) 600 m by ring]
    exact this

/-- C66, refuted: asking for an even number of diameters returns one more; with at most 300 points of the distribution any call for two or
more diameters fails with IndexError; and the mean diameter need not be in the list: it never is for a mean of 20. -/
theorem C66_diam_list_refuted :
    (∀ (num_diam : ℕ) (mean pdi : ℝ), pdi ≠ 0 → num_diam % 2 = 0 → ∀ l, calcDiamList num_diam mean pdi 600 = .ok l → l.length = num_diam + 1) ∧
    (∀ (num_diam N : ℕ) (mean pdi : ℝ), pdi ≠ 0 → 2 ≤ num_diam → N ≤ 300 → calcDiamList num_diam mean pdi N = .error .indexError) ∧
    (∀ (num_diam : ℕ) (pdi : ℝ), pdi ≠ 0 → ∀ l, calcDiamList num_diam 20 pdi 600 = .ok l → (20 : ℝ) ∉ l) := by
  refine ⟨fun n mean pdi hp hn l hl => ?_, fun n N mean pdi hp hn hN => ?_, fun n pdi hp l hl hmem => ?_⟩
  · obtain ⟨l', hl', hlen, _⟩ := C66_diam_list_partial n mean pdi hp
    rw [hl] at hl'
    rw [Except.ok.inj hl', hlen]; omega
  · unfold calcDiamList
    obtain ⟨k, hk⟩ : ∃ k, n / 2 = k + 1 := ⟨n / 2 - 1, by omega⟩
    simp only [if_neg hp, hk, pickLoop, pickTwo]
    rw [if_neg (by omega)]
    rfl
  · obtain ⟨l', hl', _, _, _, hg, _⟩ := C66_diam_list_partial n 20 pdi hp
    rw [hl] at hl'
    rw [Except.ok.inj hl'] at hmem
    obtain ⟨i, hi, he⟩ := hg 20 hmem
    unfold linspace at he
    rw [if_neg (by norm_num)] at he
    have h1 : (i : ℝ) * 39 = 11381 := by
      have : ((600 : ℕ) : ℝ) - 1 = 599 := by norm_num
      rw [this] at he
      field_simp at he
      linarith
    have h2 : i * 39 = 11381 := by exact_mod_cast h1
    omega

/-- C66, equal spacing.  For an odd number of at least three diameters and a positive mean, exactly that many diameters are returned, strictly
increasing, from a hundredth of the mean to twice the mean, the mean among them. -/
theorem C66_equal_spacing_partial (k : ℕ) (mean : ℝ) (hm : 0 < mean) (hk : 1 ≤ k) :
    (equalDiamList (2 * k + 1) mean).length = 2 * k + 1 ∧ (equalDiamList (2 * k + 1) mean).Pairwise (· < ·) ∧
    mean ∈ equalDiamList (2 * k + 1) mean ∧ ∀ d ∈ equalDiamList (2 * k + 1) mean, mean / 100 ≤ d ∧ d ≤ 2 * mean := by
  have hhalf : (pyRound ((((2 * k + 1 : ℕ) : ℝ) + 1) / 2)).toNat = k + 1 := by
    have : ((((2 * k + 1 : ℕ) : ℝ) + 1) / 2) = ((k + 1 : ℤ) : ℝ) := by push_cast; ring
    rw [this]
    unfold pyRound
    rw [Int.floor_intCast, sub_self, if_pos (by norm_num)]
    omega
  set rm := mean / 2 with hrm
  have hrm0 : 0 < rm := by positivity
  set A : Finset ℝ := (Finset.range (k + 1)).image (linspace (rm / 100) rm (k + 1)) with hA
  set B : Finset ℝ := (Finset.range (k + 1)).image (linspace rm (2 * rm) (k + 1)) with hB
  have hk1 : (0:ℝ) < k := by exact_mod_cast hk
  have lin : ∀ (a b : ℝ) (i : ℕ), linspace a b (k + 1) i = a + i * ((b - a) / k) := by
    intro a b i
    unfold linspace
    rw [if_neg (by omega)]
    push_cast
    rw [add_sub_cancel_right]
  have hall : (((List.range (k+1)).map (linspace (rm / 100) rm (k+1)) ++ (List.range (k+1)).map (linspace rm (2 * rm) (k+1)))).toFinset = A ∪ B := by
    ext x; simp [hA, hB]
  have inj : ∀ (a b : ℝ), a < b → Function.Injective (linspace a b (k + 1)) := by
    intro a b hab i j hij
    rw [lin, lin] at hij
    have : (b - a) / k ≠ 0 := by have : 0 < (b - a) / k := div_pos (by linarith) hk1; exact this.ne'
    have h2 : (i : ℝ) * ((b - a) / k) = j * ((b - a) / k) := by linarith
    exact_mod_cast mul_right_cancel₀ this h2
  have hlt : rm / 100 < rm := by linarith
  have hcA : A.card = k + 1 := by rw [hA, Finset.card_image_of_injective _ (inj _ _ hlt), Finset.card_range]
  have hcB : B.card = k + 1 := by rw [hB, Finset.card_image_of_injective _ (inj _ _ (by linarith)), Finset.card_range]
  have last : linspace (rm / 100) rm (k + 1) k = rm := by rw [lin]; field_simp; ring
  have first : linspace rm (2 * rm) (k + 1) 0 = rm := by rw [lin]; simp
  have memA : ∀ x ∈ A, rm / 100 ≤ x ∧ x ≤ rm := by
    intro x hx
    obtain ⟨i, hi, rfl⟩ := Finset.mem_image.mp hx
    exact linspace_mem hlt.le (Finset.mem_range.mp hi)
  have memB : ∀ x ∈ B, rm ≤ x ∧ x ≤ 2 * rm := by
    intro x hx
    obtain ⟨i, hi, rfl⟩ := Finset.mem_image.mp hx
    exact linspace_mem (by linarith) (Finset.mem_range.mp hi)
  have hrmA : rm ∈ A := Finset.mem_image.mpr ⟨k, Finset.mem_range.mpr (by omega), last⟩
  have hrmB : rm ∈ B := Finset.mem_image.mpr ⟨0, Finset.mem_range.mpr (by omega), first⟩
  have hcap : A ∩ B = {rm} := by
    ext x
    rw [Finset.mem_inter, Finset.mem_singleton]
    constructor
    · rintro ⟨ha, hb⟩; exact le_antisymm (memA x ha).2 (memB x hb).1
    · rintro rfl; exact ⟨hrmA, hrmB⟩
  have hcard : (A ∪ B).card = 2 * k + 1 := by
    have := Finset.card_union_add_card_inter A B
    rw [hcap, Finset.card_singleton, hcA, hcB] at this
    omega
  have he : equalDiamList (2 * k + 1) mean = ((A ∪ B).sort (· ≤ ·)).map fun r => 2 * r := by
    unfold equalDiamList
    simp only [hhalf, ← hrm, hall]
  rw [he]
  refine ⟨by simp [hcard], ?_, ?_, ?_⟩
  · rw [List.pairwise_map]
    exact (Finset.sortedLT_sort (A ∪ B)).pairwise.imp fun h => by linarith
  · refine List.mem_map.mpr ⟨rm, ?_, by rw [hrm]; ring⟩
    rw [Finset.mem_sort]
    exact Finset.mem_union_left _ hrmA
  · intro d hd
    obtain ⟨x, hx, rfl⟩ := List.mem_map.mp hd
    rw [Finset.mem_sort] at hx
    rcases Finset.mem_union.mp hx with hx | hx
    · have := memA x hx; constructor <;> linarith [this.1, this.2]
    · have := memB x hx; constructor <;> linarith [this.1, this.2]

/-! ### C67: sampling diameters and species -/

/-- C67.  For positive diameters and mean and any polydispersity index other than 0, `sample_diams` never fails, and the diameter of each
slot is one of the list; the probabilities it uses add up to 1 and are in the ratio of the size distribution. -/
theorem C67_sample_diams {n : ℕ} (pdi : ℝ) (d : Fin n → ℝ) (mean : ℝ) (draw : ℕ → Fin nt → Fin n) (hn : 0 < n) (hp : pdi ≠ 0) (hm : 0 < mean)
    (hd : ∀ i, 0 < d i) :
    ∃ (r : ℕ → Fin nt → ℝ) (prob : Fin n → ℝ), sampleDiams pdi d mean draw = .ok r ∧ (∀ ev tr, r ev tr = d (draw ev tr)) ∧
      (∀ i, 0 < prob i) ∧ ∑ i, prob i = 1 ∧
      (∀ i, (fin (Spheres.sizeDistribution mean (widthOf pdi) (d i)) / fin (∑ k, Spheres.sizeDistribution mean (widthOf pdi) (d k)) : XF) = fin (prob i)) := by
  have ht : -1 < widthOf pdi := by
    unfold widthOf
    have : 0 < pdi ^ 2 := by positivity
    rw [lt_div_iff₀ this]; linarith
  have hpos : ∀ i, 0 < Spheres.sizeDistribution mean (widthOf pdi) (d i) := fun i => rawDistribution_pos hm ht (hd i)
  have hs : 0 < ∑ k, Spheres.sizeDistribution mean (widthOf pdi) (d k) := Finset.sum_pos (fun k _ => hpos k) ⟨⟨0, hn⟩, Finset.mem_univ _⟩
  refine ⟨fun ev tr => d (draw ev tr), fun i => Spheres.sizeDistribution mean (widthOf pdi) (d i) / ∑ k, Spheres.sizeDistribution mean (widthOf pdi) (d k),
    ?_, fun _ _ => rfl, fun i => div_pos (hpos i) hs, ?_, fun i => fin_div _ hs.ne'⟩
  · unfold sampleDiams
    rw [if_neg hp]
    simp only
    rw [if_pos (choiceOk_of (fun i => (hpos i).le) hs)]
  · rw [← Finset.sum_div]; exact div_self hs.ne'

/-- C67.  A monodisperse index of 0 is refused. -/
theorem C67_zero_pdi {n : ℕ} (d : Fin n → ℝ) (mean : ℝ) (draw : ℕ → Fin nt → Fin n) : sampleDiams 0 d mean draw = .error .zeroDivision := by
  simp [sampleDiams]

/-- C67.  `sample_concentration` succeeds exactly when the given numbers are probabilities, and then every slot gets the number of a species,
between 1 and the number of species, of positive probability. -/
theorem C67_sample_concentration {n : ℕ} (p : Fin n → ℝ) (draw : ℕ → Fin nt → Fin n) (hdraw : ∀ tr, Drawn (fun i => fin (p i)) (fun ev => draw ev tr)) :
    (((∀ i, 0 ≤ p i) ∧ ∑ i, p i = 1) → ∃ r, sampleConcentration (fun i => fin (p i)) draw = .ok r ∧
      ∀ ev tr, 1 ≤ r ev tr ∧ ∃ h : r ev tr - 1 < n, 0 < p ⟨r ev tr - 1, h⟩) ∧
    (¬ ((∀ i, 0 ≤ p i) ∧ ∑ i, p i = 1) → sampleConcentration (fun i => fin (p i)) draw = .error .valueError) := by
  have hc : choiceOk (fun i => fin (p i)) ↔ (∀ i, 0 ≤ p i) ∧ ∑ i, p i = 1 := by
    unfold choiceOk
    simp only [fin_le, sum_fin, fin_inj]
  constructor
  · intro h
    refine ⟨_, by unfold sampleConcentration; rw [if_pos (hc.mpr h)], fun ev tr => ⟨by omega, by simp, ?_⟩⟩
    have := hdraw tr ev
    rw [fin_lt] at this
    simpa using this
  · intro h
    unfold sampleConcentration
    rw [if_neg (fun h' => h (hc.mp h'))]

example : (∀ i, 0 ≤ (![1/4, 3/4] : Fin 2 → ℝ) i) ∧ ∑ i, (![1/4, 3/4] : Fin 2 → ℝ) i = 1 := by
  refine ⟨fun i => by fin_cases i <;> norm_num, by norm_num [Fin.sum_univ_two]⟩

/-! ### C80: angles and steps in a mixture of spheres -/

/-- C80 (slots whose parameter is in the list).  For every mixture with distinct parameters, phase functions that are non-negative and not zero on
the grid, and positive scattering coefficients, the sampling succeeds for every random stream; a slot holding sphere type `j` gets an
angle of the grid between 0.01 and pi and the exponentially distributed step of that type, and no other; the azimuth is in [0, 2 pi). -/
theorem C80_mixture_partial {ns num : ℕ} (nev : ℕ) (p_sphere : Fin ns → Fin num → ℝ) (params : ℕ → Fin nt → ℝ) (mu : Fin ns → ℝ)
    (param_list : Fin ns → ℝ) (randPhi : ℕ → Fin nt → ℝ) (rand : Fin ns → ℕ → Fin nt → ℝ) (draw : Fin ns → ℕ → Fin nt → Fin num)
    (hp : ∀ j i, 0 ≤ p_sphere j i) (hpos : ∀ j, 0 < ∑ i, solidWeight (p_sphere j) 0.01 i) (hmu : ∀ j, 0 < mu j)
    (hinj : Function.Injective param_list) (hr : ∀ j ev tr, 0 ≤ rand j ev tr ∧ rand j ev tr < 1) (hphi : ∀ ev tr, 0 ≤ randPhi ev tr ∧ randPhi ev tr < 1) :
    ∃ s, sampleAnglesStepPoly nev p_sphere params mu param_list randPhi rand draw = .ok s ∧
      (∀ ev tr, 0 ≤ s.phi ev tr ∧ s.phi ev tr < 2 * Real.pi) ∧
      ∀ ev tr j, ev < nev → params ev tr = param_list j →
        s.theta ev tr = linspace 0.01 Real.pi num (draw j ev tr) ∧ 0.01 ≤ s.theta ev tr ∧ s.theta ev tr ≤ Real.pi ∧
        s.step ev tr = fin (-Real.log (1 - rand j ev tr) / mu j) ∧ 0 ≤ -Real.log (1 - rand j ev tr) / mu j := by
  have hπ : (0.01:ℝ) ≤ Real.pi := by have := Real.pi_gt_three; norm_num at *; linarith
  have hok : ∀ j, choiceOk (probTheta (p_sphere j) 0.01) := by
    intro j
    have hw : ∀ i, 0 ≤ solidWeight (p_sphere j) 0.01 i := fun i => mul_nonneg (hp j i) (sin_linspace_nonneg (by norm_num) hπ i.isLt)
    have : choiceOk (fun i => fin (solidWeight (p_sphere j) 0.01 i * 2 * Real.pi) / fin (∑ k, solidWeight (p_sphere j) 0.01 k * 2 * Real.pi)) := by
      refine choiceOk_of (fun i => by have := hw i; have := Real.pi_pos; positivity) ?_
      simp only [mul_assoc]
      rw [← Finset.sum_mul]
      have := hpos j
      have := Real.pi_pos
      positivity
    exact this
  -- the loop
  have loop : ∀ (l : List (Fin ns)) (s : PolySample nt), ∃ s',
      l.foldlM (polyTurn nev p_sphere params mu param_list rand draw) s = .ok s' ∧ s'.phi = s.phi ∧
      ∀ ev tr, ev < nev → (∀ j, params ev tr = param_list j → j ∈ l →
          s'.theta ev tr = linspace 0.01 Real.pi num (draw j ev tr) ∧ s'.step ev tr = fin (-Real.log (1 - rand j ev tr)) * (fin 1 / fin (mu j))) ∧
        ((∀ j ∈ l, params ev tr ≠ param_list j) → s'.theta ev tr = s.theta ev tr ∧ s'.step ev tr = s.step ev tr) := by
    intro l
    induction l with
    | nil => intro s; exact ⟨s, rfl, rfl, fun ev tr _ => ⟨fun j _ h => absurd h (List.not_mem_nil), fun _ => ⟨rfl, rfl⟩⟩⟩
    | cons a l ih =>
      intro s
      obtain ⟨s1, hs1, hphi1, hhit, hmiss⟩ : ∃ s1, polyTurn nev p_sphere params mu param_list rand draw s a = .ok s1 ∧ s1.phi = s.phi ∧
          (∀ ev tr, ev < nev → params ev tr = param_list a → s1.theta ev tr = linspace 0.01 Real.pi num (draw a ev tr) ∧
            s1.step ev tr = fin (-Real.log (1 - rand a ev tr)) * (fin 1 / fin (mu a))) ∧
          (∀ ev tr, params ev tr ≠ param_list a → s1.theta ev tr = s.theta ev tr ∧ s1.step ev tr = s.step ev tr) := by
        unfold polyTurn
        by_cases h : ∃ ev tr, ev < nev ∧ params ev tr = param_list a
        · rw [if_neg (not_not.mpr h), if_neg (not_not.mpr (hok a))]
          refine ⟨_, rfl, rfl, fun ev tr _ he => by simp [he], fun ev tr he => by simp [he]⟩
        · rw [if_pos h]
          exact ⟨s, rfl, rfl, fun ev tr hlt he => absurd ⟨ev, tr, hlt, he⟩ h, fun ev tr _ => ⟨rfl, rfl⟩⟩
      obtain ⟨s', hs', hphi', hl⟩ := ih s1
      refine ⟨s', ?_, hphi'.trans hphi1, fun ev tr hlt => ⟨fun j hj hmem => ?_, fun hall => ?_⟩⟩
      · simp only [List.foldlM_cons, hs1, bind, Except.bind]; exact hs'
      · by_cases hja : j ∈ l
        · exact (hl ev tr hlt).1 j hj hja
        · have hja' : j = a := (List.mem_cons.mp hmem).resolve_right hja
          subst hja'
          have hno : ∀ i ∈ l, params ev tr ≠ param_list i := fun i hi he => hja (hinj (hj.symm.trans he) ▸ hi)
          have := (hl ev tr hlt).2 hno
          rw [this.1, this.2]
          exact hhit ev tr hlt hj
      · have := (hl ev tr hlt).2 fun i hi => hall i (List.mem_cons_of_mem _ hi)
        rw [this.1, this.2]
        exact hmiss ev tr (hall a List.mem_cons_self)
  obtain ⟨s, hs, hphi', hl⟩ := loop (List.finRange ns) { theta := fun _ _ => 0, phi := fun ev tr => 2 * Real.pi * randPhi ev tr, step := fun _ _ => fin 0 }
  refine ⟨s, hs, fun ev tr => ?_, fun ev tr j hlt hj => ?_⟩
  · rw [hphi']
    have := hphi ev tr
    have hpi := Real.pi_pos
    exact ⟨by have := this.1; positivity, by simp only; nlinarith [this.2]⟩
  · obtain ⟨h1, h2⟩ := (hl ev tr hlt).1 j hj (List.mem_finRange j)
    have hm := linspace_mem hπ (draw j ev tr).isLt
    refine ⟨h1, by rw [h1]; exact hm.1, by rw [h1]; exact hm.2, ?_, ?_⟩
    · rw [h2, fin_div _ (hmu j).ne', fin_mul, fin_inj]; ring
    · have hlog : Real.log (1 - rand j ev tr) ≤ 0 := Real.log_nonpos (by linarith [(hr j ev tr).2]) (by linarith [(hr j ev tr).1])
      exact div_nonneg (by linarith) (hmu j).le

/-- C80, refuted: a slot whose parameter is in none of the list's entries (a different unit, a rounded value) is silently given the
angle 0 and a step of length 0 instead of an error. -/
theorem C80_unlisted_refuted {ns num : ℕ} (nev : ℕ) (p_sphere : Fin ns → Fin num → ℝ) (params : ℕ → Fin nt → ℝ) (mu : Fin ns → ℝ)
    (param_list : Fin ns → ℝ) (randPhi : ℕ → Fin nt → ℝ) (rand : Fin ns → ℕ → Fin nt → ℝ) (draw : Fin ns → ℕ → Fin nt → Fin num)
    (hnone : ∀ ev tr j, params ev tr ≠ param_list j) :
    ∃ s, sampleAnglesStepPoly nev p_sphere params mu param_list randPhi rand draw = .ok s ∧ ∀ ev tr, s.theta ev tr = 0 ∧ s.step ev tr = fin 0 := by
  have loop : ∀ (l : List (Fin ns)) (s : PolySample nt), l.foldlM (polyTurn nev p_sphere params mu param_list rand draw) s = .ok s := by
    intro l
    induction l with
    | nil => intro s; rfl
    | cons a l ih =>
      intro s
      have : polyTurn nev p_sphere params mu param_list rand draw s a = .ok s := by
        unfold polyTurn
        rw [if_pos (by rintro ⟨ev, tr, _, h⟩; exact hnone ev tr a h)]
      simp only [List.foldlM_cons, this, bind, Except.bind]; exact ih s
  exact ⟨_, loop _ _, fun _ _ => ⟨rfl, rfl⟩⟩

/-- Non-vacuity of C80: two types with parameters 1 and 2 and flat phase functions. -/
example : Function.Injective (![1, 2] : Fin 2 → ℝ) := by
  intro i j h; fin_cases i <;> fin_cases j <;> simp_all

/-- Non-vacuity of C66: seven diameters of a distribution of mean 200 and index 1/10. -/
example : ∃ l, calcDiamList 7 200 (1/10) 600 = .ok l ∧ l.length = 7 ∧ l.Pairwise (· ≤ ·) := by
  obtain ⟨l, h, -, h2, h3, -⟩ := C66_diam_list_partial 7 200 (1/10) (by norm_num)
  exact ⟨l, h, h2 rfl, h3⟩

end Verif.Props
