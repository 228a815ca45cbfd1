import Verif.Model.PlotCoord
import Verif.Props.Traj

/-!
# C155: plots of trajectories
-/

namespace Verif.Props
noncomputable section
open Verif.Spec Verif.Traj
open Verif (PyErr)

variable {nt : ℕ}

/-- where photon `j` is after `i` steps: at its start plus the steps so far, each along its direction -/
def pathPoint (p : ℕ → Fin nt → V3) (s : ℕ → Fin nt → ℝ) (k : ℕ → Fin nt → V3) (i : ℕ) (j : Fin nt) : V3 :=
  ⟨(p 0 j).x + ∑ n ∈ Finset.range i, s n j * (k n j).x, (p 0 j).y + ∑ n ∈ Finset.range i, s n j * (k n j).y,
   (p 0 j).z + ∑ n ∈ Finset.range i, s n j * (k n j).z⟩

theorem move_path (p : ℕ → Fin nt → V3) (s : ℕ → Fin nt → ℝ) (k : ℕ → Fin nt → V3) (i : ℕ) (j : Fin nt) :
    move p s k i j = pathPoint p s k i j := by
  induction i with
  | zero => ext <;> simp [pathPoint, (C33_move_steps p s k 0 j).1]
  | succ i ih =>
    have h : move p s k (i + 1) j = V3.add (move p s k i j) (V3.smul (s i j) (k i j)) := rfl
    rw [h, ih]
    ext <;> simp only [pathPoint, V3.add, V3.smul, Finset.sum_range_succ] <;> ring

theorem mapM_ok {α β : Type} {f : α → Except PyErr β} {g : α → β} (l : List α) (h : ∀ a ∈ l, f a = .ok (g a)) :
    l.mapM f = .ok (l.map g) := by
  induction l with
  | nil => rfl
  | cons a l ih =>
    rw [List.mapM_cons, h a (by simp), ih fun b hb => h b (by simp [hb])]
    rfl

/-- C155, what holds.  After `move`, with at least one trajectory: asked for at most as many trajectories as there are, `plot_coord` succeeds.
Each of its three panels has one curve for each trajectory; at event `i` the curve of trajectory `j` shows the coordinate of where photon `j` is
after `i` steps, from the start to the last event.  With `three_dim` it shows the paths of the first `ntraj` trajectories, each in a
colour of its own. -/
theorem C155_plot_coord_partial (nev : ℕ) (p : ℕ → Fin nt → V3) (s : ℕ → Fin nt → ℝ) (k : ℕ → Fin nt → V3) (hnt : 0 < nt)
    (ntraj : ℕ) (h : ntraj ≤ nt) (three : Bool) :
    ∃ d, plotCoord nev (move p s k) ntraj three = .ok d ∧
      (∀ (c : V3 → ℝ) (l : List (List ℝ)), (c = V3.x ∧ l = d.xs) ∨ (c = V3.y ∧ l = d.ys) ∨ (c = V3.z ∧ l = d.zs) →
        l.length = nt ∧ ∀ j : Fin nt, ∃ curve, l[(j : ℕ)]? = some curve ∧ curve.length = nev + 1 ∧
          ∀ i, i ≤ nev → curve[i]? = some (c (pathPoint p s k i j))) ∧
      (three = false → d.clouds = []) ∧
      (three = true → d.clouds.length = ntraj ∧ (d.clouds.map Prod.fst).Nodup ∧
        ∀ j : Fin nt, (j : ℕ) < ntraj → ∃ colour pts, d.clouds[(j : ℕ)]? = some (colour, pts) ∧ pts.length = nev + 1 ∧
          ∀ i, i ≤ nev → pts[i]? = some (pathPoint p s k i j)) := by
  set g : ℕ → ℝ × List V3 := fun n => (linspace 0 (9 / 10) ntraj n,
    List.ofFn fun i : Fin (nev + 1) => if hn : n < nt then move p s k i ⟨n, hn⟩ else ⟨0, 0, 0⟩) with hg
  have hcl : (List.range ntraj).mapM (cloud nev (move p s k) ntraj) = .ok ((List.range ntraj).map g) := by
    refine mapM_ok _ fun n hn => ?_
    have hn' : n < nt := (List.mem_range.mp hn).trans_le h
    simp only [cloud, hg, dif_pos hn']
  have hpan : ∀ c : V3 → ℝ, (panel nev c (move p s k)).length = nt ∧
      ∀ j : Fin nt, ∃ curve, (panel nev c (move p s k))[(j : ℕ)]? = some curve ∧ curve.length = nev + 1 ∧
        ∀ i, i ≤ nev → curve[i]? = some (c (pathPoint p s k i j)) := by
    intro c
    refine ⟨by simp [panel], fun j => ⟨List.ofFn fun i : Fin (nev + 1) => c (move p s k i j), ?_, by simp, fun i hi => ?_⟩⟩
    · simp [panel]
    · rw [List.getElem?_ofFn, dif_pos (by omega), move_path]
  refine ⟨⟨panel nev V3.x (move p s k), panel nev V3.y (move p s k), panel nev V3.z (move p s k),
    if three then (List.range ntraj).map g else []⟩, ?_, ?_, ?_, ?_⟩
  · unfold plotCoord
    rw [if_neg (by omega), if_neg (by omega)]
    cases three
    · rfl
    · simp only [if_true, Int.toNat_natCast, hcl]
      rfl
  · rintro c l (⟨rfl, rfl⟩ | ⟨rfl, rfl⟩ | ⟨rfl, rfl⟩) <;> exact hpan _
  · rintro rfl; rfl
  · rintro rfl
    simp only [if_true]
    refine ⟨by simp, ?_, fun j hj => ⟨(g j).1, (g j).2, ?_, by simp [hg], fun i hi => ?_⟩⟩
    · rw [List.map_map]
      refine (List.nodup_map_iff_inj_on List.nodup_range).mpr fun a ha b hb hab => ?_
      have ha := List.mem_range.mp ha
      have hb := List.mem_range.mp hb
      simp only [Function.comp, hg, linspace] at hab
      split_ifs at hab with h1
      · omega
      · have hn : (0 : ℝ) < ntraj - 1 := by
          have : 2 ≤ ntraj := by omega
          have : (2 : ℝ) ≤ ntraj := by exact_mod_cast this
          linarith
        have hc : (9 / 10 - 0 : ℝ) / (ntraj - 1) ≠ 0 := by positivity
        have := mul_right_cancel₀ hc (add_left_cancel hab)
        exact_mod_cast this
    · simp [hj]
    · simp only [hg]
      rw [List.getElem?_ofFn, dif_pos (by omega), dif_pos j.2, move_path]

/-- C155, refuted: "ntraj: Number of trajectories".  Whatever number is asked for (not negative), without `three_dim` the three panels show all the
trajectories there are; and with `three_dim`, asking for more than there are is an IndexError. -/
theorem C155_number_refuted (nev : ℕ) (p : ℕ → Fin nt → V3) (hnt : 0 < nt) (ntraj : ℕ) :
    (∃ d, plotCoord nev p ntraj false = .ok d ∧ d.xs.length = nt ∧ d.ys.length = nt ∧ d.zs.length = nt) ∧
    (nt < ntraj → plotCoord nev p ntraj true = .error .indexError) := by
  constructor
  · refine ⟨⟨panel nev V3.x p, panel nev V3.y p, panel nev V3.z p, []⟩, ?_, by simp [panel], by simp [panel], by simp [panel]⟩
    unfold plotCoord
    rw [if_neg (by omega), if_neg (by omega)]
    rfl
  · intro h
    have key : ∀ m a, a ≤ nt → nt < a + m → (List.range' a m).mapM (cloud nev p ntraj) = .error .indexError := by
      intro m
      induction m with
      | zero => intro a h1 h2; omega
      | succ m ih =>
        intro a h1 h2
        rw [List.range'_succ, List.mapM_cons]
        by_cases ha : a < nt
        · rw [ih (a + 1) (by omega) (by omega)]
          simp only [cloud, dif_pos ha]
          rfl
        · simp only [cloud, dif_neg ha]
          rfl
    unfold plotCoord
    rw [if_neg (by omega), if_neg (by omega)]
    simp only [if_true, Int.toNat_natCast, List.range_eq_range', key ntraj 0 (by omega) (by omega)]
    rfl

/-- Non-vacuity: two photons, one flying along z and one along x, for three events, both asked for. -/
example : ∃ (p : ℕ → Fin 2 → V3) (s : ℕ → Fin 2 → ℝ) (k : ℕ → Fin 2 → V3) (d : CoordPlot),
    plotCoord 3 (move p s k) (2 : ℕ) true = .ok d ∧ d.clouds.length = 2 ∧ pathPoint p s k 3 1 = ⟨3, 0, 0⟩ := by
  obtain ⟨d, h, -, -, h2⟩ := C155_plot_coord_partial 3 (fun _ _ => ⟨0, 0, 0⟩) (fun _ _ => 1)
    (fun _ j => if j = 0 then ⟨0, 0, 1⟩ else ⟨1, 0, 0⟩) (nt := 2) (by norm_num) 2 le_rfl true
  exact ⟨_, _, _, d, h, (h2 rfl).1, by ext <;> simp [pathPoint]⟩

end
end Verif.Props
