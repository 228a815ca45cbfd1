import Verif.Model.Plots
import Mathlib.Tactic.Linarith
import Mathlib.Tactic.FieldSimp
import Mathlib.Tactic.Ring
import Mathlib.Tactic.NormNum
import Mathlib.Algebra.BigOperators.Fin
import Mathlib.Algebra.BigOperators.Field
import Mathlib.Algebra.Order.BigOperators.Group.Finset

/-!
# Properties C123 and C124: the event plots and the saved files
-/

namespace Verif.Props
open Classical XF Verif.Plots

/-! ## Lemmas -/

private theorem mapM_ok {α β : Type} (f : α → Except PyErr β) (g : α → β) (l : List α) (h : ∀ a ∈ l, f a = .ok (g a)) :
    l.mapM f = .ok (l.map g) := by
  induction l with
  | nil => rfl
  | cons a l ih =>
    rw [List.mapM_cons, h a (by simp), ih (fun b hb => h b (by simp [hb]))]
    rfl

private theorem axis_ok {n : ℕ} {i : ℤ} (h0 : 0 ≤ i) (h1 : i < n) : axisIndex n i = .ok ⟨i.toNat, by omega⟩ := by
  unfold axisIndex; rw [dif_pos ⟨h0, h1⟩]

private theorem remaining_fin {nw ne : ℕ} (r : Fin nw → Fin ne → ℝ) (ev : ℤ) (w : Fin nw) :
    remaining (fun w e => fin (r w e)) ev w = fin (1 - ∑ e ∈ Finset.univ.filter (fun e : Fin ne => ((e : ℕ) : ℤ) < ev), r w e) := by
  unfold remaining; rw [sum_fin, fin_sub]

private theorem before_eq {ne : ℕ} (f : Fin ne → ℝ) (k : Fin ne) :
    ∑ e ∈ Finset.univ.filter (fun e : Fin ne => ((e : ℕ) : ℤ) < ((k : ℕ) : ℤ)), f e = ∑ e with e < k, f e := by
  refine Finset.sum_congr ?_ fun _ _ => rfl
  ext e; simp

private theorem before_add_le {ne : ℕ} (f : Fin ne → ℝ) (h0 : ∀ e, 0 ≤ f e) (k : Fin ne) :
    (∑ e with e < k, f e) + f k ≤ ∑ e, f e := by
  have h : f k + ∑ e with e < k, f e = ∑ e ∈ insert k (Finset.univ.filter (fun e : Fin ne => e < k)), f e := by
    rw [Finset.sum_insert (by simp)]
  rw [add_comm, h]
  exact Finset.sum_le_sum_of_subset_of_nonneg (Finset.subset_univ _) fun e _ _ => h0 e

private theorem curves_ok {nw : ℕ} (hw : nw ≠ 0) (one : ℤ → Except PyErr (Fin nw → XF)) (g : ℤ → Fin nw → XF) (l : List ℤ)
    (h : ∀ ev ∈ l, one ev = .ok (g ev)) : curves nw one l = .ok (l.map g) := by
  unfold curves
  rw [mapM_ok _ g l (fun ev hev => by rw [h ev hev]; simp [Except.bind, plot])]
  simp [hw]

/-! ## C123 -/

/-- The reflectance-per-event table of a run at `nw` wavelengths and `ne` events, as the user hands it over: contributions are
non-negative and at each wavelength they add up to at most the light that entered. -/
structure EventTable (nw ne : ℕ) where
  r : Fin nw → Fin ne → ℝ
  nonneg : ∀ w e, 0 ≤ r w e
  total : ∀ w, ∑ e, r w e ≤ 1

/-- the table as the array of floats the plotting functions receive -/
def EventTable.arr {nw ne : ℕ} (T : EventTable nw ne) : Fin nw → Fin ne → XF := fun w e => fin (T.r w e)

/-- the light still in the sample before event `k` -/
noncomputable def EventTable.left {nw ne : ℕ} (T : EventTable nw ne) (w : Fin nw) (k : Fin ne) : ℝ := 1 - ∑ e with e < k, T.r w e

private theorem norm_value {nw ne : ℕ} (T : EventTable nw ne) (k : Fin ne) (w : Fin nw) :
    T.arr w k / remaining T.arr ((k : ℕ) : ℤ) w = if T.left w k = 0 then nan else fin (T.r w k / T.left w k) := by
  have hr : remaining T.arr ((k : ℕ) : ℤ) w = fin (T.left w k) := by
    unfold EventTable.arr; rw [remaining_fin, before_eq]; rfl
  rw [hr]
  have h1 := before_add_le (T.r w) (T.nonneg w) k
  have h2 := T.total w
  by_cases h0 : T.left w k = 0
  · rw [if_pos h0, h0]
    have h3 : T.r w k = 0 := by
      refine le_antisymm ?_ (T.nonneg w k)
      unfold EventTable.left at h0; linarith
    show fin (T.r w k) / fin 0 = nan
    rw [h3, fin_div_def]; simp [infOfSign]
  · rw [if_neg h0]; exact fin_div _ h0

/-- the plotted value -/
noncomputable def EventTable.hazard {nw ne : ℕ} (T : EventTable nw ne) (k : Fin ne) : Fin nw → XF :=
  fun w => if T.left w k = 0 then nan else fin (T.r w k / T.left w k)

private theorem norm_ok {nw ne : ℕ} (T : EventTable nw ne) (k : Fin ne) : normColumn T.arr ((k : ℕ) : ℤ) = .ok (T.hazard k) := by
  unfold normColumn
  rw [axis_ok (by omega) (by exact_mod_cast k.2)]
  simp only [Except.map]
  congr 1; funext w
  have := norm_value T k w
  simpa [EventTable.hazard] using this

private theorem norm_plot {nw ne : ℕ} (hw : nw ≠ 0) (T : EventTable nw ne) (ks : List (Fin ne)) :
    reflEventNorm nw T.arr (ks.map fun k : Fin ne => (k.val : ℤ)) = .ok (ks.map T.hazard) := by
  unfold reflEventNorm curves
  have : ∀ l : List (Fin ne), (l.map fun k : Fin ne => (k.val : ℤ)).mapM (fun ev => (normColumn T.arr ev).bind (plot nw)) =
      .ok (l.map T.hazard) := by
    intro l
    induction l with
    | nil => rfl
    | cons k l ih =>
      rw [List.map_cons, List.mapM_cons, ih, norm_ok]
      simp [Except.bind, plot, bind, pure, Except.pure]
  rw [this]; simp [hw]

/-- **C123.** For every event table and every choice of events `ks` (repetitions and any order allowed), `plot_refl_event_norm` draws one
curve per event; at each wavelength the value drawn is the fraction of the light still in the sample before the event that this event
sends out: a number in [0, 1] whose product with the light still there is the table's entry, and NaN (a gap in the curve) exactly when no
light is left. -/
theorem C123_normalised_event {nw ne : ℕ} (hw : nw ≠ 0) (T : EventTable nw ne) (ks : List (Fin ne)) :
    ∃ out : List (Fin nw → XF), reflEventNorm nw T.arr (ks.map fun k : Fin ne => (k.val : ℤ)) = .ok out ∧ out.length = ks.length ∧
      ∀ (i : ℕ) (hi : i < ks.length) (ho : i < out.length) (w : Fin nw),
        (T.left w ks[i] = 0 → out[i] w = nan) ∧
        (T.left w ks[i] ≠ 0 → ∃ h : ℝ, out[i] w = fin h ∧ 0 ≤ h ∧ h ≤ 1 ∧ T.left w ks[i] * h = T.r w ks[i]) := by
  refine ⟨ks.map T.hazard, norm_plot hw T ks, by simp, ?_⟩
  intro i hi ho w
  rw [List.getElem_map]
  have h1 := before_add_le (T.r w) (T.nonneg w) ks[i]
  have h2 := T.total w
  have hk := T.nonneg w ks[i]
  constructor
  · intro h; simp [EventTable.hazard, h]
  · intro h
    have hp : 0 < T.left w ks[i] := by
      refine lt_of_le_of_ne ?_ (Ne.symm h)
      unfold EventTable.left; linarith
    refine ⟨T.r w ks[i] / T.left w ks[i], by simp [EventTable.hazard, h], by positivity, ?_, by field_simp⟩
    rw [div_le_one hp]; unfold EventTable.left; linarith

private theorem sum_lt_eq {ne : ℕ} (f : Fin ne → ℝ) (k : ℕ) (hk : k < ne) :
    (∑ e : Fin ne with e.val < k + 1, f e) = (∑ e : Fin ne with e.val < k, f e) + f ⟨k, hk⟩ := by
  have : (Finset.univ.filter fun e : Fin ne => (e : ℕ) < k + 1) =
      insert ⟨k, hk⟩ (Finset.univ.filter fun e : Fin ne => (e : ℕ) < k) := by
    ext e; simp [Fin.ext_iff]; omega
  rw [this, Finset.sum_insert (by simp), add_comm]

/-- **C123.** The curves of all events together describe a survival process: if light is left at the end, the product of the
complements of the first `k` plotted values is exactly the light that the table says is still in the sample after `k` events. -/
theorem C123_survival {nw ne : ℕ} (hw : nw ≠ 0) (T : EventTable nw ne) (hl : ∀ w, ∑ e, T.r w e < 1) :
    ∃ h : Fin ne → Fin nw → ℝ,
      reflEventNorm nw T.arr ((List.finRange ne).map fun k : Fin ne => (k.val : ℤ)) = .ok ((List.finRange ne).map fun k w => fin (h k w)) ∧
      ∀ (w : Fin nw) (k : ℕ), k ≤ ne → ∏ e : Fin ne with e.val < k, (1 - h e w) = 1 - ∑ e : Fin ne with e.val < k, T.r w e := by
  have hpos : ∀ (w : Fin nw) (k : ℕ), 0 < 1 - ∑ e : Fin ne with e.val < k, T.r w e := by
    intro w k
    have : ∑ e : Fin ne with e.val < k, T.r w e ≤ ∑ e, T.r w e :=
      Finset.sum_le_sum_of_subset_of_nonneg (Finset.subset_univ _) fun e _ _ => T.nonneg w e
    linarith [hl w]
  have hleft : ∀ (w : Fin nw) (k : Fin ne), T.left w k = 1 - ∑ e : Fin ne with e.val < k.val, T.r w e := by
    intro w k; unfold EventTable.left; rfl
  refine ⟨fun k w => T.r w k / T.left w k, ?_, ?_⟩
  · rw [norm_plot hw]
    congr 1
    refine List.map_congr_left fun k _ => ?_
    funext w
    have : T.left w k ≠ 0 := by rw [hleft]; exact (hpos w k).ne'
    simp [EventTable.hazard, this]
  · intro w k
    induction k with
    | zero => intro _; simp
    | succ k ih =>
      intro hk
      have hk' : k < ne := hk
      have hset : (Finset.univ.filter fun e : Fin ne => (e : ℕ) < k + 1) =
          insert ⟨k, hk'⟩ (Finset.univ.filter fun e : Fin ne => (e : ℕ) < k) := by
        ext e; simp [Fin.ext_iff]; omega
      rw [hset, Finset.prod_insert (by simp), ih (by omega), ← hset, sum_lt_eq _ k hk']
      dsimp only
      rw [hleft]
      have := (hpos w k).ne'
      field_simp
      ring

/-- **C123.** `plot_refl_event_sum` over all events draws the total reflectance; over any selection of distinct events it draws a
number between 0 and the total. -/
theorem C123_sum_of_events {nw ne : ℕ} (hw : nw ≠ 0) (T : EventTable nw ne) (ks : List (Fin ne)) :
    ∃ s : Fin nw → ℝ, reflEventSum nw T.arr (ks.map fun k : Fin ne => (k.val : ℤ)) = .ok (fun w => fin (s w)) ∧
      (∀ w, s w = (ks.map (T.r w)).sum) ∧ (ks.Nodup → ∀ w, 0 ≤ s w ∧ s w ≤ ∑ e, T.r w e) ∧
      (ks = List.finRange ne → ∀ w, s w = ∑ e, T.r w e) := by
  have hm : ∀ l : List (Fin ne), (l.map fun k : Fin ne => (k.val : ℤ)).mapM (axisIndex ne) = .ok l := by
    intro l
    induction l with
    | nil => rfl
    | cons k l ih =>
      rw [List.map_cons, List.mapM_cons, ih, axis_ok (by omega) (by exact_mod_cast k.2)]
      simp [bind, Except.bind, pure, Except.pure]
  have hs : ∀ (w : Fin nw) (l : List (Fin ne)), (l.map (T.arr w)).sum = fin ((l.map (T.r w)).sum) := by
    intro w l
    induction l with
    | nil => rfl
    | cons k l ih => rw [List.map_cons, List.sum_cons, ih, List.map_cons, List.sum_cons]; rfl
  refine ⟨fun w => (ks.map (T.r w)).sum, ?_, fun _ => rfl, ?_, ?_⟩
  · unfold reflEventSum
    rw [hm]; simp [plot, hw, hs]
  · intro hn w
    have : (ks.map (T.r w)).sum = ∑ e ∈ ks.toFinset, T.r w e := (List.sum_toFinset _ hn).symm
    show 0 ≤ (ks.map (T.r w)).sum ∧ (ks.map (T.r w)).sum ≤ _
    rw [this]
    exact ⟨Finset.sum_nonneg fun e _ => T.nonneg w e,
      Finset.sum_le_sum_of_subset_of_nonneg (Finset.subset_univ _) fun e _ _ => T.nonneg w e⟩
  · intro hk w
    show (ks.map (T.r w)).sum = _
    rw [hk, ← List.ofFn_eq_map, List.sum_ofFn]

/-- half of the light leaves at event 1 and the rest at event 2 -/
noncomputable def halfTable : EventTable 1 3 where
  r := fun _ e => if e = 0 then 0 else 1 / 2
  nonneg := fun _ e => by split <;> norm_num
  total := fun _ => by simp [Fin.sum_univ_three]; norm_num

private theorem half_left (k : Fin 3) : halfTable.left 0 k = if k = 2 then 1 / 2 else 1 := by
  unfold EventTable.left halfTable
  fin_cases k
  · rw [Finset.sum_filter, Fin.sum_univ_three]; simp
  · rw [Finset.sum_filter, Fin.sum_univ_three]; simp
  · rw [Finset.sum_filter, Fin.sum_univ_three]; simp; norm_num

/-- **C123, refuted part.** `plot_refl_event_sum_norm` adds fractions of different totals: for a table in which half of the light leaves
at event 1 and the rest at event 2 it draws a "reflectance" of 3/2. -/
theorem C123_sum_norm_refuted :
    ∃ T : EventTable 1 3, ∃ y : Fin 1 → XF, reflEventSumNorm 1 T.arr [1, 2] = .ok y ∧ y 0 = fin (3 / 2) := by
  refine ⟨halfTable, fun w => halfTable.hazard 1 w + (halfTable.hazard 2 w + 0), ?_, ?_⟩
  · unfold reflEventSumNorm
    have h1 : normColumn halfTable.arr 1 = .ok (halfTable.hazard 1) := norm_ok halfTable 1
    have h2 : normColumn halfTable.arr 2 = .ok (halfTable.hazard 2) := norm_ok halfTable 2
    have : [(1 : ℤ), 2].mapM (normColumn halfTable.arr) = .ok [halfTable.hazard 1, halfTable.hazard 2] := by
      rw [List.mapM_cons, List.mapM_cons, h1, h2]; rfl
    rw [this]
    simp [plot]
  · have e1 : halfTable.hazard 1 0 = fin (1 / 2) := by
      unfold EventTable.hazard; rw [half_left]; simp [halfTable]
    have e2 : halfTable.hazard 2 0 = fin 1 := by
      unfold EventTable.hazard; rw [half_left]; simp [halfTable]
    show halfTable.hazard 1 0 + (halfTable.hazard 2 0 + 0) = _
    rw [e1, e2, zero_def, fin_add, fin_add]; norm_num

/-- **C123, proved part of the summed plot.** For a single event the summed normalised curve is the normalised curve of that event, so it
stays in [0, 1] while light is left. -/
theorem C123_sum_norm_single_partial {nw ne : ℕ} (hw : nw ≠ 0) (T : EventTable nw ne) (k : Fin ne) :
    ∃ y : Fin nw → XF, reflEventSumNorm nw T.arr [((k : ℕ) : ℤ)] = .ok y ∧
      ∀ w, T.left w k ≠ 0 → ∃ h : ℝ, y w = fin h ∧ 0 ≤ h ∧ h ≤ 1 ∧ T.left w k * h = T.r w k := by
  obtain ⟨out, ho, hlen, hv⟩ := C123_normalised_event hw T [k]
  have hh := norm_plot hw T [k]
  refine ⟨T.hazard k, ?_, ?_⟩
  · unfold reflEventSumNorm
    have : [((k : ℕ) : ℤ)].mapM (normColumn T.arr) = .ok [T.hazard k] := by
      rw [List.mapM_cons, norm_ok]; rfl
    rw [this]; simp [plot, hw]
  · intro w hwk
    rw [List.map_cons, List.map_nil] at ho hh
    rw [ho] at hh
    have hout : out = [T.hazard k] := by simpa using hh
    subst hout
    exact (hv 0 (by simp) (by simp) w).2 hwk

/-- **C123, refuted part.** A negative event number counts from the end in the numerator but not in the normalisation: `event = [-1]`
draws the unnormalised reflectance of the last event (here 1/2 where the light still in the sample gives 1). -/
theorem C123_negative_event_refuted :
    ∃ T : EventTable 1 3, ∃ y : Fin 1 → XF, reflEventNorm 1 T.arr [-1] = .ok [y] ∧ reflEvent 1 T.arr [-1] = .ok [y] ∧
      y 0 = fin (1 / 2) ∧ T.left 0 2 * 1 = T.r 0 2 := by
  refine ⟨halfTable, fun _ => fin (1 / 2), ?_, ?_, rfl, by rw [half_left]; simp [halfTable]⟩
  · unfold reflEventNorm
    have h1 : normColumn halfTable.arr (-1) = .ok (fun _ => fin (1 / 2)) := by
      unfold normColumn axisIndex
      rw [dif_neg (by omega), dif_pos (by constructor <;> norm_num)]
      simp only [Except.map]
      congr 1; funext w
      unfold EventTable.arr
      rw [remaining_fin]
      have : (Finset.univ.filter fun e : Fin 3 => ((e : ℕ) : ℤ) < -1) = ∅ := by
        ext e; simp
      rw [this, Finset.sum_empty]
      simp [halfTable, fin_div_def]
    exact curves_ok one_ne_zero _ (fun _ _ => fin (1 / 2)) [-1] (by intro ev hev; simp at hev; rw [hev]; exact h1)
  · unfold reflEvent
    refine curves_ok one_ne_zero _ (fun _ _ => fin (1 / 2)) [-1] ?_
    intro ev hev; simp at hev; rw [hev]
    unfold axisIndex
    rw [dif_neg (by omega), dif_pos (by constructor <;> norm_num)]
    simp [Except.map, EventTable.arr, halfTable]

/-- **C123.** `plot_refl_dist` at a listed wavelength draws, in its first two figures, a probability distribution over events: the values
are non-negative, add up to 1 and are proportional to the table's row, provided anything is reflected at that wavelength; if nothing is, every
point is NaN.  A wavelength that is not in the list raises `IndexError`. -/
theorem C123_distribution {nw ne : ℕ} (T : EventTable nw ne) (wavelengths : List ℝ) (hl : wavelengths.length = nw) (wl : ℝ) :
    (wl ∉ wavelengths → reflDist wavelengths T.arr wl = .error .indexError) ∧
    (wl ∈ wavelengths → ∃ (w : Fin nw) (xs : Fin ne → ℤ) (p : Fin ne → XF),
      wavelengths[(w : ℕ)]'(by omega) = wl ∧ (∀ i : ℕ, ∀ hi : i < (w : ℕ), wavelengths[i]'(by omega) ≠ wl) ∧
      reflDist wavelengths T.arr wl = .ok (xs, p, T.arr w) ∧ (∀ e, xs e = (e : ℤ) - 1) ∧
      (∑ e, T.r w e = 0 → ∀ e, p e = nan) ∧
      (∑ e, T.r w e ≠ 0 → ∃ q : Fin ne → ℝ, (∀ e, p e = fin (q e)) ∧ (∀ e, 0 ≤ q e) ∧ ∑ e, q e = 1 ∧
        ∀ e, q e * ∑ e', T.r w e' = T.r w e)) := by
  constructor
  · intro h; unfold reflDist findWavelength; rw [if_neg h]
  · intro h
    have hi : wavelengths.findIdx (fun x => decide (x = wl)) < wavelengths.length :=
      List.findIdx_lt_length_of_exists ⟨wl, h, by simp⟩
    have hS : ∀ w, (∑ e, T.arr w e : XF) = fin (∑ e, T.r w e) := fun w => by unfold EventTable.arr; rw [sum_fin]
    obtain ⟨w, hw⟩ : ∃ w : Fin nw, w = ⟨wavelengths.findIdx (fun x => decide (x = wl)), by omega⟩ := ⟨_, rfl⟩
    have hwv : w.val = wavelengths.findIdx (fun x => decide (x = wl)) := by rw [hw]
    refine ⟨w, fun e => (e : ℤ) - 1, fun e => T.arr w e / ∑ e', T.arr w e', ?_, ?_, ?_, fun _ => rfl, ?_, ?_⟩
    · have := List.findIdx_getElem (w := hi)
      simp only [hwv]
      simpa using this
    · intro i hi'
      rw [hwv] at hi'
      have := List.not_of_lt_findIdx hi'
      simpa using this
    · unfold reflDist findWavelength
      rw [if_pos h]
      dsimp only
      rw [dif_pos (by omega)]
      subst hw; rfl
    · intro h0 e
      dsimp only
      rw [hS, h0]
      have hz : T.r w e = 0 :=
        (Finset.sum_eq_zero_iff_of_nonneg fun e _ => T.nonneg _ e).1 h0 e (Finset.mem_univ e)
      unfold EventTable.arr
      rw [hz, fin_div_def]; simp [infOfSign]
    · intro h0
      have hp := lt_of_le_of_ne (Finset.sum_nonneg fun e _ => T.nonneg w e) (Ne.symm h0)
      refine ⟨fun e => T.r w e / ∑ e', T.r w e', fun e => ?_, fun e => div_nonneg (T.nonneg _ e) hp.le, ?_, fun e => ?_⟩
      · dsimp only
        rw [hS]; exact fin_div _ h0
      · rw [← Finset.sum_div, div_self h0]
      · dsimp only; field_simp

example : halfTable.left 0 2 ≠ 0 ∧ ∑ e, halfTable.r 0 e ≠ 0 ∧ (500 : ℝ) ∈ [500] := by
  refine ⟨by rw [half_left]; norm_num, ?_, by simp⟩
  simp [halfTable, Fin.sum_univ_three]

/-- a table that leaves light in the sample, as `C123_survival` asks -/
example : ∃ T : EventTable 2 3, (∀ w, ∑ e, T.r w e < 1) ∧ T.r 1 2 = 1 / 4 :=
  ⟨⟨fun _ _ => 1 / 4, fun _ _ => by norm_num, fun _ => by simp; norm_num⟩, fun _ => by simp; norm_num, rfl⟩

/-! ## C124 -/

/-- Splitting at the first underscore. -/
private theorem split_eq {a b x y : List Char} (ha : '_' ∉ a) (hb : '_' ∉ b) (h : a ++ '_' :: x = b ++ '_' :: y) : a = b ∧ x = y := by
  induction a generalizing b with
  | nil =>
    cases b with
    | nil => simpa using h
    | cons c b => simp at h; exact absurd h.1 (by simp at hb; exact hb.1)
  | cons c a ih =>
    cases b with
    | nil => simp at h; exact absurd h.1.symm (by simp at ha; exact ha.1)
    | cons d b =>
      simp at h ha hb
      obtain ⟨h1, h2⟩ := ih ha.2 hb.2 h.2
      exact ⟨by rw [h.1, h1], h2⟩

private theorem axisIndex_ok {n : ℕ} (i : ℤ) : (∃ k, axisIndex n i = .ok k) ↔ -(n : ℤ) ≤ i ∧ i < n := by
  unfold axisIndex
  split
  · rename_i h; simp; omega
  · split
    · rename_i h; simp; omega
    · rename_i h1 h2
      simp
      omega

private theorem mapM_iff {α β : Type} (f : α → Except PyErr β) (l : List α) :
    (∃ out, l.mapM f = .ok out) ↔ ∀ a ∈ l, ∃ b, f a = .ok b := by
  induction l with
  | nil => simp [pure, Except.pure]
  | cons a l ih =>
    rw [List.mapM_cons]
    cases ha : f a with
    | error e => simp [bind, Except.bind, ha]
    | ok b =>
      cases hl : l.mapM f with
      | error e =>
        rw [hl] at ih
        simp only [bind, Except.bind, List.mem_cons, forall_eq_or_imp, ha]
        simp only [reduceCtorEq, exists_false, false_iff] at ih ⊢
        exact fun h => ih h.2
      | ok bs =>
        rw [hl] at ih
        simp only [bind, Except.bind, pure, Except.pure, List.mem_cons, forall_eq_or_imp, ha]
        have := ih.1 ⟨_, rfl⟩
        exact ⟨fun _ => ⟨⟨_, rfl⟩, this⟩, fun _ => ⟨_, rfl⟩⟩

/-- **C123.** When something is drawn: `plot_refl_event` and `plot_refl_event_norm` succeed exactly if every requested event is an index
of the event axis (negative ones count from the end), the table has one row per wavelength (needed as soon as a curve is drawn) and there is
at least one wavelength; the two plots of sums need the rows to match in any case.  Otherwise they raise an error — never a curve over the
wrong wavelengths. -/
theorem C123_when_drawn {nw ne : ℕ} (nx : ℕ) (R : Fin nw → Fin ne → XF) (events : List ℤ) :
    ((∃ out, reflEvent nx R events = .ok out) ↔
      (∀ ev ∈ events, -(ne : ℤ) ≤ ev ∧ ev < ne ∧ nx = nw) ∧ nx ≠ 0) ∧
    ((∃ out, reflEventNorm nx R events = .ok out) ↔
      (∀ ev ∈ events, -(ne : ℤ) ≤ ev ∧ ev < ne ∧ nx = nw) ∧ nx ≠ 0) ∧
    ((∃ out, reflEventSum nx R events = .ok out) ↔
      (∀ ev ∈ events, -(ne : ℤ) ≤ ev ∧ ev < ne) ∧ nx = nw ∧ nx ≠ 0) ∧
    ((∃ out, reflEventSumNorm nx R events = .ok out) ↔
      (∀ ev ∈ events, -(ne : ℤ) ≤ ev ∧ ev < ne) ∧ nx = nw ∧ nx ≠ 0) := by
  have hmap : ∀ {β : Type} (g : Fin ne → β) (ev : ℤ), (∃ b, (axisIndex ne ev).map g = .ok b) ↔ -(ne : ℤ) ≤ ev ∧ ev < ne := by
    intro β g ev
    rw [← axisIndex_ok]
    cases axisIndex ne ev <;> simp [Except.map]
  have hplot : ∀ y : Fin nw → XF, (∃ b, plot nx y = .ok b) ↔ nx = nw := by
    intro y; unfold plot; split <;> simp_all
  have hcurves : ∀ one : ℤ → Except PyErr (Fin nw → XF), (∀ ev, (∃ b, one ev = .ok b) ↔ -(ne : ℤ) ≤ ev ∧ ev < ne) →
      ((∃ out, curves nx one events = .ok out) ↔ (∀ ev ∈ events, -(ne : ℤ) ≤ ev ∧ ev < ne ∧ nx = nw) ∧ nx ≠ 0) := by
    intro one h1
    have hone : ∀ ev, (∃ b, (one ev).bind (plot nx) = .ok b) ↔ -(ne : ℤ) ≤ ev ∧ ev < ne ∧ nx = nw := by
      intro ev
      have h := h1 ev
      cases hev : one ev with
      | error e =>
        rw [hev] at h
        simp only [reduceCtorEq, exists_false, false_iff] at h
        simp only [Except.bind, reduceCtorEq, exists_false, false_iff]
        exact fun h' => h ⟨h'.1, h'.2.1⟩
      | ok y =>
        rw [hev] at h
        have := h.1 ⟨_, rfl⟩
        simp only [Except.bind]
        rw [hplot]
        exact ⟨fun e => ⟨this.1, this.2, e⟩, fun e => e.2.2⟩
    have hm := mapM_iff (fun ev => (one ev).bind (plot nx)) events
    simp only [hone] at hm
    unfold curves
    rw [← hm]
    cases events.mapM fun ev => (one ev).bind (plot nx) with
    | error e => simp
    | ok l =>
      simp only
      split <;> simp_all
  refine ⟨hcurves _ fun ev => hmap _ ev, hcurves _ fun ev => hmap _ ev, ?_, ?_⟩
  · have hm := mapM_iff (axisIndex ne) events
    simp only [axisIndex_ok] at hm
    unfold reflEventSum
    rw [← hm]
    cases events.mapM (axisIndex ne) with
    | error e => simp
    | ok l =>
      have hp := hplot fun w => (l.map (R w)).sum
      simp only
      cases hq : plot nx fun w => (l.map (R w)).sum with
      | error e => rw [hq] at hp; simp at hp ⊢; tauto
      | ok y =>
        rw [hq] at hp
        have := hp.1 ⟨_, rfl⟩
        simp only
        split <;> simp_all
  · have hm := mapM_iff (normColumn R) events
    have hn : ∀ ev, (∃ b, normColumn R ev = .ok b) ↔ -(ne : ℤ) ≤ ev ∧ ev < ne := fun ev => hmap _ ev
    simp only [hn] at hm
    unfold reflEventSumNorm
    rw [← hm]
    cases events.mapM (normColumn R) with
    | error e => simp
    | ok l =>
      have hp := hplot fun w => (l.map (fun c => c w)).sum
      simp only
      cases hq : plot nx fun w => (l.map (fun c => c w)).sum with
      | error e => rw [hq] at hp; simp at hp ⊢; tauto
      | ok y =>
        rw [hq] at hp
        have := hp.1 ⟨_, rfl⟩
        simp only
        split <;> simp_all

/-- Non-vacuity: a table of 3 events at 2 wavelengths is drawn for events 0 and 2, and refused with three wavelengths. -/
example : (∃ out, reflEvent 2 (fun (_ : Fin 2) (_ : Fin 3) => fin 0) [0, 2] = .ok out) ∧
    ¬ ∃ out, reflEvent 3 (fun (_ : Fin 2) (_ : Fin 3) => fin 0) [0, 2] = .ok out := by
  constructor
  · rw [(C123_when_drawn 2 _ [0, 2]).1]; simp
  · rw [(C123_when_drawn 3 _ [0, 2]).1]
    intro h
    have := (h.1 0 (by simp)).2.2
    omega

/-- What is assumed of Python's `str` on the numbers in the file name: different numbers give different texts, without underscores. -/
structure StrFaithful (S : Str) : Prop where
  int_inj : Function.Injective S.int
  num_inj : Function.Injective S.num
  int_clean : ∀ n, '_' ∉ S.int n
  num_clean : ∀ x, '_' ∉ S.num x

/-- the parameters the file name shows, in the order of the name: the material names, the numbers of trajectories, events and wavelengths,
and the bare magnitudes -/
def shown {α : Type} (a : SaveArgs α) : (List Char × List Char) × (ℕ × ℕ × ℕ) × (Except PyErr ℚ × Except PyErr ℚ × Except PyErr ℚ) :=
  ((a.particle, a.matrix), (a.ntrajectories, a.nevents, a.wavelengths.1.length),
    (a.particle_radius.magnitude, a.volume_fraction.magnitude, a.thickness.magnitude))

private theorem fileName_inj {α : Type} {S : Str} (hS : StrFaithful S) {a b : SaveArgs α} {n : List Char}
    (ha : fileName S a = .ok n) (hb : fileName S b = .ok n) (ca : '_' ∉ a.particle ∧ '_' ∉ a.matrix)
    (cb : '_' ∉ b.particle ∧ '_' ∉ b.matrix) : shown a = shown b := by
  unfold fileName at ha hb
  cases har : a.particle_radius.magnitude with
  | error e => rw [har] at ha; exact (nomatch ha)
  | ok r =>
  cases hav : a.volume_fraction.magnitude with
  | error e => rw [har, hav] at ha; exact (nomatch ha)
  | ok v =>
  cases hat : a.thickness.magnitude with
  | error e => rw [har, hav, hat] at ha; exact (nomatch ha)
  | ok t =>
  cases hbr : b.particle_radius.magnitude with
  | error e => rw [hbr] at hb; exact (nomatch hb)
  | ok r' =>
  cases hbv : b.volume_fraction.magnitude with
  | error e => rw [hbr, hbv] at hb; exact (nomatch hb)
  | ok v' =>
  cases hbt : b.thickness.magnitude with
  | error e => rw [hbr, hbv, hbt] at hb; exact (nomatch hb)
  | ok t' =>
  rw [har, hav, hat] at ha
  rw [hbr, hbv, hbt] at hb
  simp only [Except.ok.injEq] at ha hb
  rw [← hb] at ha
  have h0 := List.append_cancel_right ha
  unfold nameOf at h0
  simp only [List.append_assoc] at h0
  have pre : ∀ (p : List Char) (x y : List Char), p ++ x = p ++ y → x = y := fun p x y h => List.append_cancel_left h
  obtain ⟨e1, h0⟩ := split_eq (x := "in_".toList ++ _) (y := "in_".toList ++ _) ca.1 cb.1 h0
  replace h0 := pre _ _ _ h0
  obtain ⟨e2, h0⟩ := split_eq (x := "ntraj".toList ++ _) (y := "ntraj".toList ++ _) ca.2 cb.2 h0
  replace h0 := pre _ _ _ h0
  obtain ⟨e3, h0⟩ := split_eq (x := "nevent".toList ++ _) (y := "nevent".toList ++ _) (hS.int_clean _) (hS.int_clean _) h0
  replace h0 := pre _ _ _ h0
  obtain ⟨e4, h0⟩ := split_eq (x := "rad".toList ++ _) (y := "rad".toList ++ _) (hS.int_clean _) (hS.int_clean _) h0
  replace h0 := pre _ _ _ h0
  obtain ⟨e5, h0⟩ := split_eq (x := "vf".toList ++ _) (y := "vf".toList ++ _) (hS.num_clean _) (hS.num_clean _) h0
  replace h0 := pre _ _ _ h0
  obtain ⟨e6, h0⟩ := split_eq (x := "thick".toList ++ _) (y := "thick".toList ++ _) (hS.num_clean _) (hS.num_clean _) h0
  replace h0 := pre _ _ _ h0
  obtain ⟨e7, h0⟩ := split_eq (x := "numwl".toList ++ _) (y := "numwl".toList ++ _) (hS.num_clean _) (hS.num_clean _) h0
  replace h0 := pre _ _ _ h0
  unfold shown
  rw [har, hav, hat, hbr, hbv, hbt, e1, e2, hS.int_inj e3, hS.int_inj e4, hS.int_inj h0, hS.num_inj e5, hS.num_inj e6, hS.num_inj e7]

/-- **C124, proved part.** For every history of the file system and every two calls: if the material names contain no underscore and the
calls differ in a material name, in the number of trajectories, events or wavelengths, or in the *magnitude* of the radius, the volume
fraction or the thickness, then after saving one and then the other both files hold their own data, and no other file changed. -/
theorem C124_distinct_saves_partial {α : Type} {S : Str} (hS : StrFaithful S) (fs fs1 fs2 : List Char → Option α) (a b : SaveArgs α)
    (ca : '_' ∉ a.particle ∧ '_' ∉ a.matrix) (cb : '_' ∉ b.particle ∧ '_' ∉ b.matrix) (hab : shown a ≠ shown b)
    (h1 : save S fs a = .ok fs1) (h2 : save S fs1 b = .ok fs2) :
    ∃ na nb, fileName S a = .ok na ∧ fileName S b = .ok nb ∧ na ≠ nb ∧ fs2 na = some a.data ∧ fs2 nb = some b.data ∧
      ∀ m, m ≠ na → m ≠ nb → fs2 m = fs m := by
  unfold save at h1 h2
  cases hna : fileName S a with
  | error e => rw [hna] at h1; exact (nomatch h1)
  | ok na =>
  cases hnb : fileName S b with
  | error e => rw [hnb] at h2; exact (nomatch h2)
  | ok nb =>
  rw [hna] at h1; rw [hnb] at h2
  have hne : na ≠ nb := fun h => hab (fileName_inj hS hna (h ▸ hnb) ca cb)
  simp only [Except.map, Except.ok.injEq] at h1 h2
  subst h1; subst h2
  refine ⟨na, nb, rfl, rfl, hne, by simp [hne], by simp, ?_⟩
  intro m hm1 hm2; simp [hm1, hm2]

/-- a session: the calls one after the other -/
def saveAll {α : Type} (S : Str) (fs : List Char → Option α) : List (SaveArgs α) → Except PyErr (List Char → Option α)
  | [] => .ok fs
  | a :: l => (save S fs a).bind fun fs' => saveAll S fs' l

private theorem saveAll_append {α : Type} (S : Str) (fs : List Char → Option α) (l₁ l₂ : List (SaveArgs α)) :
    saveAll S fs (l₁ ++ l₂) = (saveAll S fs l₁).bind fun fs' => saveAll S fs' l₂ := by
  induction l₁ generalizing fs with
  | nil => rfl
  | cons a l ih =>
    show (save S fs a).bind _ = ((save S fs a).bind _).bind _
    cases save S fs a with
    | error e => rfl
    | ok fs' => exact ih fs'

private theorem saveAll_other {α : Type} {S : Str} (hS : StrFaithful S) (a : SaveArgs α) (ca : '_' ∉ a.particle ∧ '_' ∉ a.matrix)
    {n : List Char} (hn : fileName S a = .ok n) (l : List (SaveArgs α)) (fs fs' : List Char → Option α)
    (h : saveAll S fs l = .ok fs') (hl : ∀ b ∈ l, ('_' ∉ b.particle ∧ '_' ∉ b.matrix) ∧ shown b ≠ shown a) : fs' n = fs n := by
  induction l generalizing fs with
  | nil =>
    have : fs = fs' := by simpa [saveAll] using h
    rw [this]
  | cons b l ih =>
    have h' : (save S fs b).bind (fun f => saveAll S f l) = .ok fs' := h
    cases hb : save S fs b with
    | error e => rw [hb] at h'; exact (nomatch h')
    | ok f =>
      rw [hb] at h'
      rw [ih f h' (fun c hc => hl c (by simp [hc]))]
      unfold save at hb
      cases hm : fileName S b with
      | error e => rw [hm] at hb; exact (nomatch hb)
      | ok m =>
        rw [hm] at hb
        simp only [Except.map, Except.ok.injEq] at hb
        have hbl := hl b (by simp)
        have : n ≠ m := fun e => hbl.2 (fileName_inj hS hm (e ▸ hn) hbl.1 ca)
        rw [← hb]; simp [this]

/-- **C124, proved part.** In every session of saves, of any length and starting from any directory, a call's data is still in its file at
the end unless a *later* call showed the same parameters (names without underscores). -/
theorem C124_session_partial {α : Type} {S : Str} (hS : StrFaithful S) (fs fs' : List Char → Option α) (l₁ l₂ : List (SaveArgs α))
    (a : SaveArgs α) (ca : '_' ∉ a.particle ∧ '_' ∉ a.matrix) (h : saveAll S fs (l₁ ++ a :: l₂) = .ok fs')
    (hl : ∀ b ∈ l₂, ('_' ∉ b.particle ∧ '_' ∉ b.matrix) ∧ shown b ≠ shown a) :
    ∃ n, fileName S a = .ok n ∧ fs' n = some a.data := by
  rw [saveAll_append] at h
  cases h1 : saveAll S fs l₁ with
  | error e => rw [h1] at h; exact (nomatch h)
  | ok f =>
  rw [h1] at h
  have h' : (save S f a).bind (fun f => saveAll S f l₂) = .ok fs' := h
  cases h2 : save S f a with
  | error e => rw [h2] at h'; exact (nomatch h')
  | ok f2 =>
  rw [h2] at h'
  unfold save at h2
  cases hn : fileName S a with
  | error e => rw [hn] at h2; exact (nomatch h2)
  | ok n =>
  rw [hn] at h2
  simp only [Except.map, Except.ok.injEq] at h2
  refine ⟨n, rfl, ?_⟩
  rw [saveAll_other hS a ca hn l₂ f2 fs' h' hl, ← h2]; simp

/-- a call with given names, radius and wavelengths; the rest fixed -/
def saveDemo (particle matrix : List Char) (radius : Val) (wl : List ℚ) (data : ℕ) : SaveArgs ℕ :=
  ⟨particle, matrix, radius, .quantity (1 / 2) "", .quantity 50 "um", (wl, "nm"), 300, 1000, data⟩

/-- the second call overwrites the data of the first -/
def Overwrites (S : Str) (a b : SaveArgs ℕ) : Prop :=
  ∀ fs fs1 fs2, save S fs a = .ok fs1 → save S fs1 b = .ok fs2 → ∃ n, fileName S a = .ok n ∧ fs2 n = some b.data

private theorem overwrites_of_name {S : Str} {a b : SaveArgs ℕ} {n : List Char} (ha : fileName S a = .ok n) (hb : fileName S b = .ok n) :
    Overwrites S a b := by
  intro fs fs1 fs2 h1 h2
  refine ⟨n, ha, ?_⟩
  unfold save at h2
  rw [hb] at h2
  simp only [Except.map, Except.ok.injEq] at h2
  rw [← h2]; simp

/-- **C124, refuted part.** Whatever `str` does, `save_data` silently replaces the file of a different sample: (1) a radius of 120 nm and
one of 120 µm (the unit is not in the name); (2) two spectra over different wavelength ranges with the same number of points; (3) particle
`a_in_b` in `c` and particle `a` in `b_in_c`. -/
theorem C124_overwrite_refuted (S : Str) :
    Overwrites S (saveDemo ['p', 's'] ['a', 'i', 'r'] (.quantity 120 "nm") [400, 800] 1)
      (saveDemo ['p', 's'] ['a', 'i', 'r'] (.quantity 120 "um") [400, 800] 2) ∧
    Overwrites S (saveDemo ['p', 's'] ['a', 'i', 'r'] (.quantity 120 "nm") [400, 800] 1)
      (saveDemo ['p', 's'] ['a', 'i', 'r'] (.quantity 120 "nm") [400, 500] 2) ∧
    Overwrites S (saveDemo "a_in_b".toList ['c'] (.quantity 120 "nm") [400, 800] 1)
      (saveDemo ['a'] "b_in_c".toList (.quantity 120 "nm") [400, 800] 2) :=
  ⟨overwrites_of_name rfl rfl, overwrites_of_name rfl rfl, overwrites_of_name rfl rfl⟩

/-- **C124, refuted part.** A volume fraction (or radius or thickness) given as a plain number, as every other function of the package
accepts it, raises `AttributeError` and nothing is saved. -/
theorem C124_plain_number_refuted {α : Type} (S : Str) (fs : List Char → Option α) (a : SaveArgs α) (x : ℚ)
    (h : a.particle_radius = .plain x ∨ a.volume_fraction = .plain x ∨ a.thickness = .plain x) :
    save S fs a = .error .attributeError := by
  unfold save fileName
  have e : ∀ v : Val, v.magnitude = .error .attributeError ∨ ∃ m, v.magnitude = .ok m := by
    intro v; cases v with
    | quantity m u => exact .inr ⟨m, rfl⟩
    | plain x => exact .inl rfl
  rcases e a.particle_radius with h1 | ⟨m1, h1⟩ <;> rcases e a.volume_fraction with h2 | ⟨m2, h2⟩ <;>
    rcases e a.thickness with h3 | ⟨m3, h3⟩ <;> rw [h1, h2, h3] <;> try rfl
  rcases h with h | h | h
  · rw [h] at h1; exact (nomatch h1)
  · rw [h] at h2; exact (nomatch h2)
  · rw [h] at h3; exact (nomatch h3)

/-- a rendering that satisfies the assumptions exists: unary digits -/
example : ∃ S : Str, StrFaithful S := by
  refine ⟨⟨fun n => List.replicate n '1', fun q => List.replicate (Encodable.encode q) '1'⟩, ?_, ?_, ?_, ?_⟩
  · intro a b h; simpa using congrArg List.length h
  · intro a b h; exact Encodable.encode_injective (by simpa using congrArg List.length h)
  · intro n h; simp [List.mem_replicate] at h
  · intro n h; simp [List.mem_replicate] at h

/-- two calls that differ in the magnitude of the radius -/
example : shown (saveDemo ['p'] ['q'] (.quantity 120 "nm") [400] 1) ≠ shown (saveDemo ['p'] ['q'] (.quantity 121 "nm") [400] 1) := by
  intro h
  simp only [shown, saveDemo, Val.magnitude, Prod.mk.injEq, Except.ok.injEq] at h
  norm_num at h

end Verif.Props
