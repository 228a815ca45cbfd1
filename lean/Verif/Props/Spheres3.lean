import Verif.Props.Spheres2

/-!
# C64, C66: which light and which diameters a structured sphere counts
-/

namespace Verif.Props
open Verif.Spheres Verif.XF
open Verif (XF PyErr)
open Verif.Traj (linspace)

variable {nt : ℕ}

/-- C64, in closed form (the common normalisation is refuted, `C64_normalisation_refuted`): with spheres of radius `r` filling the share
`vf` of the volume, scattering is `3 vf / (2 r)` times the reflected light and the light transmitted after more than one event; absorption
is `3 vf / (4 r)` times the light that neither reflects nor transmits, plus the absorption of the matrix in the share of the volume that
it fills. -/
theorem C64_closed_form_partial (refl trans : Fin nt → ℝ) (ti : Fin nt → ℕ) (vf r k wl : ℝ) (hr : 0 < r) :
    (calcMuScatAbs refl trans ti vf r k wl).1 =
      3 * vf / (2 * r) * (∑ j, refl j + ∑ j ∈ Finset.univ.filter (fun j => ti j ≠ 1), trans j) ∧
    (calcMuScatAbs refl trans ti vf r k wl).2 =
      3 * vf / (4 * r) * (1 - (∑ j, refl j + ∑ j, trans j)) + (1 - vf) * (4 * Real.pi * k / wl) := by
  have hπ := Real.pi_pos
  have hf : ∑ j, (if ti j = 1 then 0 else trans j) = ∑ j ∈ Finset.univ.filter (fun j => ti j ≠ 1), trans j := by
    rw [Finset.sum_filter]
    exact Finset.sum_congr rfl fun j _ => by by_cases h : ti j = 1 <;> simp [h]
  constructor
  · simp only [calcMuScatAbs, Spheres.numberDensity, Finset.sum_add_distrib, hf]
    field_simp
    ring
  · simp only [calcMuScatAbs, Spheres.numberDensity, Finset.sum_add_distrib]
    field_simp

example : (calcMuScatAbs (fun _ : Fin 2 => 1/4) ![1/4, 1/8] ![1, 3] (1/2) 2 0 1).1 = 3 * (1/2) / (2 * 2) * (1/4 + 1/4 + 1/8) := by
  rw [(C64_closed_form_partial _ _ _ _ _ _ _ (by norm_num)).1]
  rw [Finset.sum_filter]
  norm_num [Fin.sum_univ_two]

/-- the turn with fraction (2^d - 1 - 2m)/2^d -/
theorem nextFraction_iterate (d m : ℕ) (hm : m < 2 ^ d) :
    nextFraction^[2 ^ d - 1 + m] (1, 2) = (2 ^ (d + 1) - 1 - 2 * m, 2 ^ (d + 1)) := by
  induction d generalizing m with
  | zero =>
    have : m = 0 := by simpa using hm
    subst this; rfl
  | succ d ihd =>
    induction m with
    | zero =>
      have h1 : 1 ≤ 2 ^ d := Nat.one_le_two_pow
      have e : 2 ^ (d + 1) - 1 + 0 = (2 ^ d - 1 + (2 ^ d - 1)) + 1 := by rw [pow_succ]; omega
      rw [e, Function.iterate_succ_apply', ihd (2 ^ d - 1) (by omega)]
      have e2 : 2 ^ (d + 1) - 1 - 2 * (2 ^ d - 1) = 1 := by rw [pow_succ]; omega
      simp only [nextFraction, e2, if_true]
      rw [pow_succ 2 (d + 1)]
      ext <;> simp <;> ring_nf
    | succ m ihm =>
      have hp : 2 ^ (d + 1 + 1) = 2 * 2 ^ (d + 1) := by ring
      rw [← add_assoc, Function.iterate_succ_apply', ihm (by omega)]
      have hne : 2 ^ (d + 1 + 1) - 1 - 2 * m ≠ 1 := by omega
      simp only [nextFraction, if_neg hne]
      ext
      · simp; omega
      · rfl

private theorem fold_max (N : ℕ) (hN : 0 < N) (pdf : ℕ → ℝ) :
    (∃ i < N, pdf i = (Finset.range N).fold max (pdf 0) pdf) ∧ ∀ i < N, pdf i ≤ (Finset.range N).fold max (pdf 0) pdf := by
  constructor
  · have h := (Finset.le_fold_max (s := Finset.range N) (f := pdf) (b := pdf 0) ((Finset.range N).fold max (pdf 0) pdf)).mp le_rfl
    rcases h with h | ⟨i, hi, h⟩
    · exact ⟨0, hN, le_antisymm ((Finset.le_fold_max _).mpr (Or.inl le_rfl)) h⟩
    · exact ⟨i, Finset.mem_range.mp hi, le_antisymm ((Finset.le_fold_max _).mpr (Or.inr ⟨i, hi, le_rfl⟩)) h⟩
  · intro i hi
    exact (Finset.le_fold_max _).mpr (Or.inr ⟨i, Finset.mem_range.mpr hi, le_rfl⟩)

private theorem pickTwo_near (rad pdf : ℕ → ℝ) (f : ℕ × ℕ) :
    ∃ i1 i2, i1 < 300 ∧ 300 ≤ i2 ∧ i2 < 600 ∧ pickTwo 600 rad pdf f = .ok [rad i1, rad i2] ∧
      (∀ i < 300, |pdf i1 - (f.1 : ℝ) / f.2 * (Finset.range 600).fold max (pdf 0) pdf| ≤ |pdf i - (f.1 : ℝ) / f.2 * (Finset.range 600).fold max (pdf 0) pdf|) ∧
      ∀ i, 300 ≤ i → i < 600 →
        |pdf i2 - (f.1 : ℝ) / f.2 * (Finset.range 600).fold max (pdf 0) pdf| ≤ |pdf i - (f.1 : ℝ) / f.2 * (Finset.range 600).fold max (pdf 0) pdf| := by
  obtain ⟨h1, h1', _⟩ := argmin_spec 300 (fun i => |pdf i - (f.1 : ℝ) / f.2 * (Finset.range 600).fold max (pdf 0) pdf|) (by norm_num)
  obtain ⟨h2, h2', _⟩ := argmin_spec 300 (fun i => |pdf (300 + i) - (f.1 : ℝ) / f.2 * (Finset.range 600).fold max (pdf 0) pdf|) (by norm_num)
  refine ⟨_, 300 + argmin 300 (fun i => |pdf (300 + i) - (f.1 : ℝ) / f.2 * (Finset.range 600).fold max (pdf 0) pdf|),
    h1, by omega, by omega, ?_, fun i hi => h1' i hi, fun i hi0 hi1 => ?_⟩
  · unfold pickTwo
    simp only [show 600 / 2 = 300 by norm_num, show 600 - 300 = 300 by norm_num]
    rw [if_pos (by omega)]
  · have := h2' (i - 300) (by omega)
    simp only [show 300 + (i - 300) = i by omega] at this
    exact this

private theorem pickLoop_turns (rad pdf : ℕ → ℝ) (n : ℕ) : ∀ (f : ℕ × ℕ) (acc l : List ℝ), pickLoop 600 rad pdf n f acc = .ok l →
    (∀ x ∈ acc, x ∈ l) ∧ ∀ turn < n, ∃ a b, pickTwo 600 rad pdf (nextFraction^[turn] f) = .ok [a, b] ∧ a ∈ l ∧ b ∈ l := by
  induction n with
  | zero =>
    intro f acc l h
    have : acc = l := Except.ok.inj h
    subst this
    exact ⟨fun x hx => hx, fun t ht => absurd ht (Nat.not_lt_zero _)⟩
  | succ n ih =>
    intro f acc l h
    obtain ⟨i1, i2, -, -, -, e, -⟩ := pickTwo_near rad pdf f
    simp only [pickLoop, e, bind, Except.bind] at h
    obtain ⟨hacc, ht⟩ := ih _ _ _ h
    refine ⟨fun x hx => hacc x (List.mem_append_left _ hx), fun turn hturn => ?_⟩
    cases turn with
    | zero => exact ⟨_, _, e, hacc _ (by simp), hacc _ (by simp)⟩
    | succ t =>
      rw [Function.iterate_succ_apply]
      exact ht t (by omega)

/-- C66, which diameters (600 points, the default): heights of the distribution are visited in the order 1/2, then 3/4, 1/4, then 7/8, 5/8,
3/8, 1/8, and so on: turn `2^d - 1 + m` looks for `(2^(d+1) - 1 - 2m)/2^(d+1)` of the maximum.  For every turn within the number of
diameters asked for, the list contains the two diameters, one in the lower and one in the upper half of the range, at which the
distribution is closest to that height.  (What is missing is in `C66_diam_list_refuted`.) -/
theorem C66_heights_partial (num_diam : ℕ) (mean pdi : ℝ) (hp : pdi ≠ 0) (l : List ℝ) (hl : calcDiamList num_diam mean pdi 600 = .ok l)
    (d m : ℕ) (hm : m < 2 ^ d) (hturn : 2 ^ d - 1 + m < num_diam / 2) (top : ℝ)
    (htop : ∀ i < 600, Spheres.sizeDistribution mean (widthOf pdi) (linspace 1 (2 * mean) 600 i) ≤ top)
    (hatt : ∃ i < 600, Spheres.sizeDistribution mean (widthOf pdi) (linspace 1 (2 * mean) 600 i) = top) :
    ∃ i1 i2, i1 < 300 ∧ 300 ≤ i2 ∧ i2 < 600 ∧ linspace 1 (2 * mean) 600 i1 ∈ l ∧ linspace 1 (2 * mean) 600 i2 ∈ l ∧
      ∀ i < 600,
        |Spheres.sizeDistribution mean (widthOf pdi) (linspace 1 (2 * mean) 600 (if i < 300 then i1 else i2)) -
          (2 ^ (d + 1) - 1 - 2 * m : ℝ) / 2 ^ (d + 1) * top| ≤
        |Spheres.sizeDistribution mean (widthOf pdi) (linspace 1 (2 * mean) 600 i) - (2 ^ (d + 1) - 1 - 2 * m : ℝ) / 2 ^ (d + 1) * top| := by
  have e4 : 4 * (mean / 2) = 2 * mean := by ring
  have e2 : 2 * (mean / 2) = mean := by ring
  unfold calcDiamList at hl
  simp only [if_neg hp, e4, e2, bind, Except.bind, pure, Except.pure] at hl
  set pdf := fun i => Spheres.sizeDistribution mean (widthOf pdi) (linspace 1 (2 * mean) 600 i) with hpdf
  split at hl
  · exact (nomatch hl)
  rename_i l0 hl0
  have hl' := Except.ok.inj hl
  obtain ⟨-, ht⟩ := pickLoop_turns _ pdf _ _ _ _ hl0
  obtain ⟨a, b, e, ha, hb⟩ := ht _ hturn
  rw [nextFraction_iterate d m hm] at e
  obtain ⟨i1, i2, h1, h2, h3, e', n1, n2⟩ := pickTwo_near (fun i => linspace 1 (2 * mean) 600 i / 2) pdf (2 ^ (d + 1) - 1 - 2 * m, 2 ^ (d + 1))
  rw [e'] at e
  have hab := Except.ok.inj e
  simp only [List.cons.injEq, and_true] at hab
  have htop' : (Finset.range 600).fold max (pdf 0) pdf = top := by
    obtain ⟨⟨i, hi, hie⟩, hle⟩ := fold_max 600 (by norm_num) pdf
    obtain ⟨i', hi', hie'⟩ := hatt
    exact le_antisymm (hie ▸ htop i hi) (hie' ▸ hle i' hi')
  have hcast : (((2 ^ (d + 1) - 1 - 2 * m : ℕ) : ℝ)) / ((2 ^ (d + 1) : ℕ) : ℝ) = (2 ^ (d + 1) - 1 - 2 * m : ℝ) / 2 ^ (d + 1) := by
    have hp2 : 2 ^ (d + 1) = 2 * 2 ^ d := by ring
    rw [Nat.cast_sub (by omega), Nat.cast_sub (by omega)]
    push_cast
    rfl
  rw [htop', hcast] at n1 n2
  have mem : ∀ i, linspace 1 (2 * mean) 600 i / 2 ∈ l0 → linspace 1 (2 * mean) 600 i ∈ l := by
    intro i hi
    rw [← hl']
    exact List.mem_map.mpr ⟨_, (List.mem_insertionSort _).mpr hi, by ring⟩
  refine ⟨i1, i2, h1, h2, h3, mem i1 (hab.1 ▸ ha), mem i2 (hab.2 ▸ hb), fun i hi => ?_⟩
  by_cases h : i < 300
  · rw [if_pos h]; exact n1 i h
  · rw [if_neg h]; exact n2 i (by omega) hi

/-- Seven diameters: three turns, for 1/2, 3/4 and 1/4 of the maximum; a maximum exists. -/
example : ∃ l, calcDiamList 7 200 (1/10) 600 = .ok l ∧ (2 ^ 0 - 1 + 0 < 7 / 2 ∧ 2 ^ 1 - 1 + 0 < 7 / 2 ∧ 2 ^ 1 - 1 + 1 < 7 / 2) ∧
    ∃ top, (∀ i < 600, Spheres.sizeDistribution 200 (widthOf (1/10)) (linspace 1 (2 * 200) 600 i) ≤ top) ∧
      ∃ i < 600, Spheres.sizeDistribution 200 (widthOf (1/10)) (linspace 1 (2 * 200) 600 i) = top := by
  obtain ⟨l, hl, -⟩ := C66_diam_list_partial 7 200 (1/10) (by norm_num)
  obtain ⟨⟨i, hi, e⟩, h⟩ := fold_max 600 (by norm_num) fun i => Spheres.sizeDistribution 200 (widthOf (1/10)) (linspace 1 (2 * 200) 600 i)
  exact ⟨l, hl, by norm_num, _, h, i, hi, e⟩

end Verif.Props
