import Verif.Props.Metamorphic3
import Verif.Props.Escape
import Verif.Props.BatchesFilm

/-!
# C146: how many events a sphere needs
-/

namespace Verif.Props
noncomputable section
open Classical Verif.Spec Verif.Root Verif.Fresnel Verif.Exits Verif.Weights _root_.Verif.XF
open Verif.Simulation Verif.Traj Verif.SphereRun Verif.Restart
open Verif (XF PyErr)
open Verif.Geometry (ofV3 XV)

variable {nt num : ℕ}

theorem four_cases (k : XF) : k < fin 0 ∨ fin 0 < k ∨ k = nan ∨ k = fin 0 := by
  cases k with
  | fin r =>
    rcases lt_trichotomy r 0 with h | h | h
    · exact Or.inl ((fin_lt _ _).2 h)
    · exact Or.inr (Or.inr (Or.inr (by rw [h])))
    · exact Or.inr (Or.inl ((fin_lt _ _).2 h))
  | pinf => exact Or.inr (Or.inl trivial)
  | ninf => exact Or.inl trivial
  | nan => exact Or.inr (Or.inr (Or.inl rfl))

/-- After event `m` photon `j` is outside the sphere of diameter `D` that touches the plane z = 0 at the origin. -/
def IsOutside (D : ℝ) (p : ℕ → Fin nt → V3) (j : Fin nt) (m : ℕ) : Prop := (D / 2) * (D / 2) < (V3.sub (p m j) ⟨0, 0, D / 2⟩).normSq

theorem outside_rows {D : ℝ} {p : ℕ → Fin nt → V3} {j : Fin nt} {nev m : ℕ} : OutsideAfter D (rowsP nev p) j m ↔ m ≤ nev ∧ IsOutside D p j m := by
  unfold OutsideAfter IsOutside rowsP
  constructor
  · rintro ⟨r, rfl, h⟩
    exact ⟨by have := r.isLt; omega, h⟩
  · rintro ⟨h1, h2⟩
    exact ⟨⟨m, by omega⟩, rfl, h2⟩

/-- Two sets of trajectories, of `nev` and of `nev'` events, that agree on the first `nev` events, and in which whoever leaves leaves during these
events. -/
structure SameStart (D : ℝ) (nev nev' : ℕ) (t t' : SphTrajs nt) : Prop where
  one : 1 ≤ nev
  le : nev ≤ nev'
  pos : ∀ i, i ≤ nev → t'.position i = t.position i
  dir : ∀ i, i < nev → t'.direction i = t.direction i
  decided : ∀ j, (∃ m, 1 ≤ m ∧ m ≤ nev ∧ IsOutside D t.position j m) ∨ ∀ m, 1 ≤ m → m ≤ nev' → ¬ IsOutside D t'.position j m

theorem same_events {D : ℝ} {nev nev' : ℕ} {t t' : SphTrajs nt} (h : SameStart D nev nev' t t') (o : Optics) (j : Fin nt) :
    (sphereEvents nev' o D t').1 j = (sphereEvents nev o D t).1 j ∧ (sphereEvents nev' o D t').2.1 j = (sphereEvents nev o D t).2.1 j ∧
    (sphereEvents nev' o D t').2.2.2 j = (sphereEvents nev o D t).2.2.2 j ∧
    ((sphereEvents nev' o D t').2.2.1 j = 0 ∧ (sphereEvents nev o D t).2.2.1 j = 0 ∨
      (sphereEvents nev' o D t').2.2.1 j = nev' ∧ (sphereEvents nev o D t).2.2.1 j = nev) ∧
    (sphereEvents nev o D t).1 j ≤ nev ∧ (sphereEvents nev o D t).2.1 j ≤ nev ∧
    restartIndices (sphereEvents nev o D t).1 (sphereEvents nev o D t).2.1 (sphereEvents nev o D t).2.2.2 j ≤ nev := by
  have hle := h.le
  change (findEventIndices _ _ _).1 j = (findEventIndices _ _ _).1 j ∧ (findEventIndices _ _ _).2.1 j = (findEventIndices _ _ _).2.1 j ∧
    (findEventIndices _ _ _).2.2.2 j = (findEventIndices _ _ _).2.2.2 j ∧
    ((findEventIndices _ _ _).2.2.1 j = 0 ∧ (findEventIndices _ _ _).2.2.1 j = 0 ∨ (findEventIndices _ _ _).2.2.1 j = nev' ∧ (findEventIndices _ _ _).2.2.1 j = nev) ∧
    (findEventIndices _ _ _).1 j ≤ nev ∧ (findEventIndices _ _ _).2.1 j ≤ nev ∧
    (findEventIndices _ _ _).1 j + (findEventIndices _ _ _).2.1 j + (findEventIndices _ _ _).2.2.2 j ≤ nev
  have same : ∀ m, m ≤ nev → (IsOutside D t'.position j m ↔ IsOutside D t.position j m) := by
    intro m hm
    unfold IsOutside
    rw [h.pos m hm]
  by_cases hex : ∃ m, 1 ≤ m ∧ m ≤ nev ∧ IsOutside D t.position j m
  · have hspec := Nat.find_spec hex
    have hmin : ∀ k, 1 ≤ k → k < Nat.find hex → ¬ IsOutside D t.position j k := fun k h1 h2 h3 =>
      Nat.find_min hex h2 ⟨h1, (h2.le.trans hspec.2.1), h3⟩
    set f := Nat.find hex
    obtain ⟨e, he⟩ : ∃ e : Fin nev, e.val + 1 = f := ⟨⟨f - 1, by omega⟩, by simp only; omega⟩
    have hlt := e.isLt
    set e' : Fin nev' := ⟨e.val, by omega⟩ with he'
    have hv : e'.val = e.val := rfl
    have hfirst : IsFirst nev (OutsideAfter D (rowsP nev t.position) j) (e.val + 1) := by
      rw [he]
      exact ⟨hspec.1, hspec.2.1, outside_rows.2 hspec.2, fun k h1 h2 h3 => hmin k h1 h2 (outside_rows.1 h3).2⟩
    have hfirst' : IsFirst nev' (OutsideAfter D (rowsP nev' t'.position) j) (e'.val + 1) := by
      rw [hv, he]
      exact ⟨hspec.1, hspec.2.1.trans hle, outside_rows.2 ⟨hspec.2.1.trans hle, (same _ hspec.2.1).2 hspec.2.2⟩, fun k h1 h2 h3 =>
        hmin k h1 h2 ((same k (h2.le.trans hspec.2.1)).1 (outside_rows.1 h3).2)⟩
    have h1 := C84_sphere_first_exit o.n_tir o.n_medium D (rowsP nev t.position) (rowsD nev t.direction) j e hfirst
    have h2 := C84_sphere_first_exit o.n_tir o.n_medium D (rowsP nev' t'.position) (rowsD nev' t'.direction) j e' hfirst'
    have p0 : rowsP nev' t'.position e'.castSucc j = rowsP nev t.position e.castSucc j := congrFun (h.pos e.val (by omega)) j
    have p1 : rowsP nev' t'.position e'.succ j = rowsP nev t.position e.succ j := congrFun (h.pos (e.val + 1) (by omega)) j
    have k0 : rowsD nev' t'.direction e' j = rowsD nev t.direction e j := congrFun (h.dir e.val (by omega)) j
    simp only [p0, p1, k0, hv] at h1 h2
    rcases four_cases (Geometry.exitKz (ofV3 (V3.sub (rowsP nev t.position e.castSucc j) ⟨0, 0, D / 2⟩))
      (ofV3 (V3.sub (rowsP nev t.position e.succ j) ⟨0, 0, D / 2⟩)) (ofV3 (rowsD nev t.direction e j)) D o.n_tir o.n_medium) with hk | hk | hk | hk
    · have a := h1.1 hk; have b := h2.1 hk
      refine ⟨?_, ?_, ?_, ?_, ?_, ?_, ?_⟩ <;> omega
    · have a := h1.2.1 hk; have b := h2.2.1 hk
      refine ⟨?_, ?_, ?_, ?_, ?_, ?_, ?_⟩ <;> omega
    · have a := h1.2.2.1 hk; have b := h2.2.2.1 hk
      refine ⟨?_, ?_, ?_, ?_, ?_, ?_, ?_⟩ <;> omega
    · have a := h1.2.2.2 hk; have b := h2.2.2.2 hk
      refine ⟨?_, ?_, ?_, ?_, ?_, ?_, ?_⟩ <;> omega
  · have hn' : ∀ m, 1 ≤ m → m ≤ nev' → ¬ IsOutside D t'.position j m := (h.decided j).resolve_left hex
    have a := C84_sphere_never_outside o.n_tir o.n_medium D (rowsP nev t.position) (rowsD nev t.direction) j fun m h1 h2 =>
      hex ⟨m, h1, outside_rows.1 h2⟩
    have b := C84_sphere_never_outside o.n_tir o.n_medium D (rowsP nev' t'.position) (rowsD nev' t'.direction) j fun m h1 h2 =>
      hn' m h1 (outside_rows.1 h2).1 (outside_rows.1 h2).2
    simp only at a b
    refine ⟨?_, ?_, ?_, ?_, ?_, ?_, ?_⟩ <;> omega

theorem same_sel {nev nev' : ℕ} {α : Type} [Zero α] (hle : nev ≤ nev') (A : Fin nev → Fin nt → α) (A' : Fin nev' → Fin nt → α) (f f' : Fin nt → ℕ)
    (j : Fin nt) (h1 : f' j = f j) (h2 : f j ≤ nev) (h3 : ∀ e (h : e < nev), A' ⟨e, h.trans_le hle⟩ j = A ⟨e, h⟩ j) : sel A' f' j = sel A f j := by
  rcases Nat.eq_zero_or_pos (f j) with h | h
  · rw [sel_zero A f j h, sel_zero A' f' j (by rw [h1, h])]
  · rw [sel_pos A f j h (by omega), sel_pos A' f' j (by omega) (by omega)]
    simp only [h1]
    exact h3 _ _

theorem same_selV {nev nev' : ℕ} (hle : nev ≤ nev') (A : Fin nev → Fin nt → V3) (A' : Fin nev' → Fin nt → V3) (f f' : Fin nt → ℕ) (j : Fin nt)
    (h1 : f' j = f j) (h2 : f j ≤ nev) (h3 : ∀ e (h : e < nev), A' ⟨e, h.trans_le hle⟩ j = A ⟨e, h⟩ j) : selV A' f' j = selV A f j := by
  unfold selV
  rw [same_sel hle (fun e j => (A e j).x) (fun e j => (A' e j).x) f f' j h1 h2 fun e h => congrArg V3.x (h3 e h),
    same_sel hle (fun e j => (A e j).y) (fun e j => (A' e j).y) f f' j h1 h2 fun e h => congrArg V3.y (h3 e h),
    same_sel hle (fun e j => (A e j).z) (fun e j => (A' e j).z) f f' j h1 h2 fun e h => congrArg V3.z (h3 e h)]

/-- one call of `calc_refl_trans`, up to the distribution: nothing changes with the events after the last photon has left, if weights do not change -/
theorem same_level {D : ℝ} {nev nev' : ℕ} {t t' : SphTrajs nt} (h : SameStart D nev nev' t t') (o : Optics) (ft : Bool) {W : Fin nt → XF}
    (hw : ∀ i j, t.weight i j = W j) (hw' : ∀ i j, t'.weight i j = W j) :
    level o (sphereGeometry nev' o D t') none ft (fun (e : Fin nev') j => t'.weight e j) =
      level o (sphereGeometry nev o D t) none ft (fun (e : Fin nev) j => t.weight e j) := by
  have hle := h.le
  have h1 := h.one
  have hev := same_events h o
  have hang : ∀ f f' : Fin nt → ℕ, (∀ j, f' j = f j) → (∀ j, f j ≤ nev) → exitAngle nev' D t'.position f' = exitAngle nev D t.position f := by
    intro f f' e1 e2
    funext j
    unfold exitAngle
    rw [same_selV hle (fun e j => centred D (rowsP nev t.position e.castSucc j)) (fun e j => centred D (rowsP nev' t'.position e.castSucc j)) f f' j (e1 j)
        (e2 j) (fun e he => congrArg (centred D) (congrFun (h.pos e (by omega)) j)),
      same_selV hle (fun e j => centred D (rowsP nev t.position e.succ j)) (fun e j => centred D (rowsP nev' t'.position e.succ j)) f f' j (e1 j)
        (e2 j) (fun e he => congrArg (centred D) (congrFun (h.pos (e + 1) (by omega)) j))]
  have hent : entryAngle D t' = entryAngle D t := by
    funext j
    unfold entryAngle
    rw [h.pos 0 (by omega), h.dir 0 (by omega)]
  have hsel : ∀ f f' : Fin nt → ℕ, (∀ j, f' j = f j) → (∀ j, f j ≤ nev) →
      sel (fun (e : Fin nev') j => t'.weight e j) f' = sel (fun (e : Fin nev) j => t.weight e j) f := by
    intro f f' e1 e2
    funext j
    exact same_sel hle _ _ f f' j (e1 j) (e2 j) fun e he => (hw' e j).trans (hw e j).symm
  have g1 : (sphereGeometry nev' o D t').thInc = (sphereGeometry nev o D t).thInc := hent
  have g2 : (sphereGeometry nev' o D t').thIncDet = (sphereGeometry nev o D t).thIncDet := hent
  have g3 : (sphereGeometry nev' o D t').thRefl = (sphereGeometry nev o D t).thRefl := hang _ _ (fun j => (hev j).1) fun j => (hev j).2.2.2.2.1
  have g4 : (sphereGeometry nev' o D t').thTrans = (sphereGeometry nev o D t).thTrans := hang _ _ (fun j => (hev j).2.1) fun j => (hev j).2.2.2.2.2.1
  have g5 : sel (fun (e : Fin nev') j => t'.weight e j) (sphereGeometry nev' o D t').ri = sel (fun (e : Fin nev) j => t.weight e j) (sphereGeometry nev o D t).ri :=
    hsel _ _ (fun j => (hev j).1) fun j => (hev j).2.2.2.2.1
  have g6 : sel (fun (e : Fin nev') j => t'.weight e j) (sphereGeometry nev' o D t').ti = sel (fun (e : Fin nev) j => t.weight e j) (sphereGeometry nev o D t).ti :=
    hsel _ _ (fun j => (hev j).2.1) fun j => (hev j).2.2.2.2.2.1
  have g7 : sel (fun (e : Fin nev') j => t'.weight e j) (sphereGeometry nev' o D t').si = sel (fun (e : Fin nev) j => t.weight e j) (sphereGeometry nev o D t).si := by
    funext j
    show sel _ (sphereEvents nev' o D t').2.2.1 j = sel _ (sphereEvents nev o D t).2.2.1 j
    rcases (hev j).2.2.2.1 with ⟨a, b⟩ | ⟨a, b⟩
    · rw [sel_zero _ _ j a, sel_zero _ _ j b]
    · rw [sel_pos _ _ j (by omega) (by omega), sel_pos _ _ j (by omega) (by omega)]
      exact (hw' _ j).trans (hw _ j).symm
  unfold level incPassFrac calcOutcomeWeights
  simp only [g1, g2, g3, g4, g5, g6, g7]

theorem same_restart {D : ℝ} {nev nev' : ℕ} {t t' : SphTrajs nt} (h : SameStart D nev nev' t t') (o : Optics) :
    restart D (rowsP nev' t'.position) (rowsD nev' t'.direction)
      (restartIndices (sphereEvents nev' o D t').1 (sphereEvents nev' o D t').2.1 (sphereEvents nev' o D t').2.2.2) =
    restart D (rowsP nev t.position) (rowsD nev t.direction)
      (restartIndices (sphereEvents nev o D t).1 (sphereEvents nev o D t).2.1 (sphereEvents nev o D t).2.2.2) := by
  have hle := h.le
  have hev := same_events h o
  have hidx : ∀ j, restartIndices (sphereEvents nev' o D t').1 (sphereEvents nev' o D t').2.1 (sphereEvents nev' o D t').2.2.2 j =
      restartIndices (sphereEvents nev o D t).1 (sphereEvents nev o D t).2.1 (sphereEvents nev o D t).2.2.2 j := by
    intro j
    unfold restartIndices
    rw [(hev j).1, (hev j).2.1, (hev j).2.2.1]
  have hb := fun j => (hev j).2.2.2.2.2.2
  generalize restartIndices (sphereEvents nev' o D t').1 (sphereEvents nev' o D t').2.1 (sphereEvents nev' o D t').2.2.2 = f' at hidx ⊢
  generalize restartIndices (sphereEvents nev o D t).1 (sphereEvents nev o D t).2.1 (sphereEvents nev o D t).2.2.2 = f at hidx hb ⊢
  unfold restart
  rw [if_neg (by push Not; exact fun j => (hidx j).le.trans ((hb j).trans hle)), if_neg (by push Not; exact hb)]
  congr 1
  funext j
  have r1 := same_selV hle (fun e => rowsP nev t.position e.succ) (fun e => rowsP nev' t'.position e.succ) f f' j (hidx j) (hb j)
    (fun e he => congrFun (h.pos (e + 1) (by omega)) j)
  have r2 := same_selV hle (fun e => rowsP nev t.position e.castSucc) (fun e => rowsP nev' t'.position e.castSucc) f f' j (hidx j) (hb j)
    (fun e he => congrFun (h.pos e (by omega)) j)
  have r3 := same_selV hle (rowsD nev t.direction) (rowsD nev' t'.direction) f f' j (hidx j) (hb j)
    (fun e he => congrFun (h.dir e he) j)
  have r4 := same_sel (α := ℝ) (nt := nt) (Nat.succ_le_succ hle) (fun (_ : Fin (nev + 1)) _ => D / 2) (fun (_ : Fin (nev' + 1)) _ => D / 2) f f' j (hidx j)
    ((hb j).trans (Nat.le_succ _)) (fun e he => rfl)
  simp only [r1, r2, r3, r4]

/-- directions and positions of a longer simulation with the same numbers have the same first rows -/
theorem prefix_walk {n n' : ℕ} (h1 : 1 ≤ n) (h : n ≤ n') (k0 p0 : ℕ → Fin nt → V3) (st ct sp cp s : ℕ → Fin nt → ℝ) :
    (∀ i, i < n → scatter n' k0 st ct sp cp i = scatter n k0 st ct sp cp i) ∧
    ∀ i, i ≤ n → move p0 s (scatter n' k0 st ct sp cp) i = move p0 s (scatter n k0 st ct sp cp) i := by
  obtain ⟨m, rfl⟩ : ∃ m, n = m + 1 := ⟨n - 1, by omega⟩
  obtain ⟨m', rfl⟩ : ∃ m', n' = m' + 1 := ⟨n' - 1, by omega⟩
  have hl := scatter_loop k0 st ct sp cp m
  have hl' := scatter_loop k0 st ct sp cp m'
  have hd : ∀ i, i < m + 1 → scatter (m' + 1) k0 st ct sp cp i = scatter (m + 1) k0 st ct sp cp i := by
    intro i
    induction i with
    | zero => intro _; exact hl'.1.trans hl.1.symm
    | succ i ih =>
      intro hi
      funext j
      refine (hl'.2.1 i (by omega) j).trans (Eq.trans ?_ (hl.2.1 i (by omega) j).symm)
      exact congrArg _ (congrFun (ih (by omega)) j)
  refine ⟨hd, fun i => ?_⟩
  induction i with
  | zero => intro _; rfl
  | succ i ih =>
    intro hi
    funext j
    refine congrArg₂ V3.add (congrFun (ih (by omega)) j) ?_
    show V3.smul _ _ = V3.smul _ _
    rw [hd i (by omega)]

/-- trajectories of a nested call with one more event agree with those of fewer -/
theorem rerun_same {n n' : ℕ} (h2 : 2 ≤ n) (h : n ≤ n') (M : Medium num) (hM : M.mu_abs = 0) (g : Draws nt num) (start : Fin nt → XV × XV) (W : Fin nt → XF) :
    (∃ e, rerun n M g start W = .error e ∧ rerun n' M g start W = .error e) ∨
    ∃ t t', rerun n M g start W = .ok t ∧ rerun n' M g start W = .ok t' ∧ (∀ i, i ≤ n → t'.position i = t.position i) ∧
      (∀ i, i < n → t'.direction i = t.direction i) ∧ (∀ i j, t.weight i j = W j * fin 1) ∧ ∀ i j, t'.weight i j = W j * fin 1 := by
  unfold rerun
  by_cases hc : choiceOk (probTheta M.p (1 / 100))
  · cases hs : sampleStep nt M.mu_scat M.mu_scat_mie 0 g.rand_step g.rand_mie with
    | error e =>
      left
      refine ⟨e, ?_, ?_⟩ <;> simp only [sampleAngles1, hc, or_true, if_true, bind, Except.bind]
    | ok s =>
      right
      simp only [sampleAngles1, hc, or_true, if_true, bind, Except.bind, pure, Except.pure]
      refine ⟨_, _, rfl, rfl, ?_, ?_, ?_, ?_⟩
      · exact (prefix_walk (by omega) h _ _ _ _ _ _ _).2
      · exact (prefix_walk (by omega) h _ (fun _ _ => V3.zero) _ _ _ _ (fun _ _ => 0)).1
      · intro i j; simp [hM]
      · intro i j; simp [hM]
  · left
    have e1 : n - 1 ≠ 0 := by omega
    have e2 : n' - 1 ≠ 0 := by omega
    refine ⟨.valueError, ?_, ?_⟩ <;> simp only [sampleAngles1, hc, e1, e2, or_false, if_false, bind, Except.bind]

/-- simulations of more and more events with the same random numbers and without absorption -/
structure Coherent (N : ℕ) (t : ℕ → SphTrajs nt) (W : Fin nt → XF) : Prop where
  pos : ∀ n n', N ≤ n → n ≤ n' → ∀ i, i ≤ n → (t n').position i = (t n).position i
  dir : ∀ n n', N ≤ n → n ≤ n' → ∀ i, i < n → (t n').direction i = (t n).direction i
  weight : ∀ n, N ≤ n → ∀ i j, (t n).weight i j = W j

theorem coherent_decided {N : ℕ} {t : ℕ → SphTrajs nt} {W : Fin nt → XF} (h : Coherent N t W) (D : ℝ) :
    ∃ N1, N ≤ N1 ∧ 2 ≤ N1 ∧ ∀ n, N1 ≤ n → SameStart D N1 n (t N1) (t n) := by
  have hP : ∀ n i, N ≤ n → i ≤ n → (t n).position i = (t (max N i)).position i := fun n i h1 h2 =>
    h.pos (max N i) n (le_max_left _ _) (max_le h1 h2) i (le_max_right _ _)
  have hf : ∀ j, ∃ m, ∀ k, 1 ≤ k → IsOutside D (fun i => (t (max N i)).position i) j k →
      1 ≤ m ∧ IsOutside D (fun i => (t (max N i)).position i) j m := by
    intro j
    by_cases hex : ∃ k, 1 ≤ k ∧ IsOutside D (fun i => (t (max N i)).position i) j k
    · obtain ⟨k, hk⟩ := hex
      exact ⟨k, fun _ _ _ => hk⟩
    · exact ⟨0, fun k h1 h2 => absurd ⟨k, h1, h2⟩ hex⟩
  choose m hm using hf
  have tr : ∀ n k j, N ≤ n → k ≤ n → (IsOutside D (t n).position j k ↔ IsOutside D (fun i => (t (max N i)).position i) j k) := by
    intro n k j h1 h2
    unfold IsOutside
    rw [hP n k h1 h2]
  refine ⟨max (max N 2) (Finset.univ.sup m), (le_max_left _ _).trans (le_max_left _ _), (le_max_right _ _).trans (le_max_left _ _), fun n hn => ?_⟩
  have hN : N ≤ max (max N 2) (Finset.univ.sup m) := (le_max_left _ _).trans (le_max_left _ _)
  refine ⟨?_, hn, h.pos _ _ hN hn, h.dir _ _ hN hn, fun j => ?_⟩
  · have : 2 ≤ max (max N 2) (Finset.univ.sup m) := (le_max_right _ _).trans (le_max_left _ _)
    omega
  by_cases hex : ∃ k, 1 ≤ k ∧ IsOutside D (fun i => (t (max N i)).position i) j k
  · obtain ⟨k, h1, h2⟩ := hex
    have hmj := hm j k h1 h2
    have hle : m j ≤ max (max N 2) (Finset.univ.sup m) := (Finset.le_sup (f := m) (Finset.mem_univ j)).trans (le_max_right _ _)
    exact Or.inl ⟨m j, hmj.1, hle, (tr _ _ _ hN hle).2 hmj.2⟩
  · exact Or.inr fun k h1 h2 h3 => hex ⟨k, h1, (tr _ _ _ (hN.trans hn) h2).1 h3⟩

theorem settle_core (D : ℝ) (M : Medium num) (hM : M.mu_abs = 0) (draws : ℕ → Draws nt num) (run : Bool) (max_stuck : ℝ) (on : Optics) (k : ℕ) :
    ∀ (o : Optics) (maxDepth depth : ℕ) (t : ℕ → SphTrajs nt) (W : Fin nt → XF) (N : ℕ),
      2 * (defaultMaxCallDepth - depth) + min 1 (maxDepth - depth) = k → Coherent N t W →
      ∃ N', N ≤ N' ∧ ∀ n, N' ≤ n → calcSphere D M draws run max_stuck on o maxDepth depth n (t n) =
        calcSphere D M draws run max_stuck on o maxDepth depth N' (t N') := by
  induction k using Nat.strong_induction_on with
  | _ k ih =>
    intro o maxDepth depth t W N hk hc
    obtain ⟨N1, hN, h2, hsame⟩ := coherent_decided hc D
    have hw := hc.weight N1 hN
    have hlev : ∀ n, N1 ≤ n → _ := fun n hn => same_level (hsame n hn) o (decide (0 < depth)) hw (hc.weight n (hN.trans hn))
    have hres : ∀ n, N1 ≤ n → _ := fun n hn => same_restart (hsame n hn) o
    cases hl : level o (sphereGeometry N1 o D (t N1)) none (decide (0 < depth)) (fun (e : Fin N1) j => (t N1).weight e j) with
    | error e =>
      refine ⟨N1, hN, fun n hn => ?_⟩
      rw [calcSphere.eq_def, calcSphere.eq_def, hlev n hn, hl]
      rfl
    | ok l =>
      by_cases hcond : run = true ∧ depth < maxDepth ∧ (fin max_stuck : XF) < l.totalStuck
      · cases hr : restart D (rowsP N1 (t N1).position) (rowsD N1 (t N1).direction)
            (restartIndices (sphereEvents N1 o D (t N1)).1 (sphereEvents N1 o D (t N1)).2.1 (sphereEvents N1 o D (t N1)).2.2.2) with
        | error e =>
          refine ⟨N1, hN, fun n hn => ?_⟩
          rw [calcSphere.eq_def, calcSphere.eq_def, hlev n hn, hl]
          simp only [bind, Except.bind]
          rw [dif_pos hcond, dif_pos hcond, hres n hn, hr]
        | ok start =>
          set W' := restartWeight l.exit.reflFresnel l.exit.transFresnel l.out.stuck with hW'
          have hrr : ∀ n n', 2 ≤ n → n ≤ n' → _ := fun n n' h2 h => rerun_same h2 h M hM (draws (depth + 1)) start W'
          rcases hrr 2 2 le_rfl le_rfl with ⟨e, he, -⟩ | ⟨t0, -, ht0, -⟩
          · refine ⟨N1, hN, fun n hn => ?_⟩
            have herr : ∀ n, 2 ≤ n → rerun n M (draws (depth + 1)) start W' = .error e := by
              intro n hn
              rcases hrr 2 n le_rfl hn with ⟨e', h1, h2⟩ | ⟨t0, -, ht0, -⟩
              · rw [he] at h1; injection h1 with h1; rw [h2, h1]
              · rw [he] at ht0; cases ht0
            rw [calcSphere.eq_def, calcSphere.eq_def, hlev n hn, hl]
            simp only [bind, Except.bind]
            rw [dif_pos hcond, dif_pos hcond, hres n hn, hr]
            simp only [← hW']
            rw [herr _ (by omega), herr _ (by omega)]
          · have hok : ∀ n, ∃ t, 2 ≤ n → rerun n M (draws (depth + 1)) start W' = .ok t := by
              intro n
              by_cases hn : 2 ≤ n
              · rcases hrr 2 n le_rfl hn with ⟨e', h1, -⟩ | ⟨-, t', -, h, -⟩
                · rw [ht0] at h1; cases h1
                · exact ⟨t', fun _ => h⟩
              · exact ⟨t0, fun h => absurd h hn⟩
            choose t' ht' using hok
            have hcoh : Coherent 2 t' (fun j => W' j * fin 1) := by
              have key : ∀ n n', 2 ≤ n → n ≤ n' → (∀ i, i ≤ n → (t' n').position i = (t' n).position i) ∧
                  (∀ i, i < n → (t' n').direction i = (t' n).direction i) ∧ (∀ i j, (t' n).weight i j = W' j * fin 1) := by
                intro n n' h2 h
                rcases hrr n n' h2 h with ⟨e', h1, -⟩ | ⟨u, u', q1, q2, q3, q4, q5, -⟩
                · rw [ht' n h2] at h1; cases h1
                · rw [ht' n h2] at q1; rw [ht' n' (h2.trans h)] at q2
                  injection q1 with q1; injection q2 with q2
                  rw [q1, q2]
                  exact ⟨q3, q4, q5⟩
              exact ⟨fun n n' a b => (key n n' a b).1, fun n n' a b => (key n n' a b).2.1, fun n a => (key n n a le_rfl).2.2⟩
            obtain ⟨N2, h22, hN2⟩ := ih (2 * (defaultMaxCallDepth - (depth + 1)) + min 1 (defaultMaxCallDepth - (depth + 1))) (by
              have := hcond.2.1
              simp only [defaultMaxCallDepth] at *
              omega) on defaultMaxCallDepth (depth + 1) t' _ 2 rfl hcoh
            have hval : ∀ n, max N1 N2 ≤ n → calcSphere D M draws run max_stuck on o maxDepth depth n (t n) = (do
                let r ← calcSphere D M draws run max_stuck on on defaultMaxCallDepth (depth + 1) N2 (t' N2)
                return { R := r.R + ∑ j, (l.det.refl j + l.det.incRefl j) / fin nt
                         T := r.T + ∑ j, l.det.trans j / fin nt
                         reflPer := fun j => r.reflPer j + (l.det.refl j + l.det.incRefl j) / fin nt
                         transPer := fun j => r.transPer j + l.det.trans j / fin nt }) := by
              intro n hn
              have hn1 : N1 ≤ n := (le_max_left _ _).trans hn
              have hn2 : N2 ≤ n := (le_max_right _ _).trans hn
              rw [calcSphere.eq_def, hlev n hn1, hl]
              simp only [bind, Except.bind]
              rw [dif_pos hcond, hres n hn1, hr]
              simp only [← hW']
              rw [ht' (n + 1) (by omega)]
              simp only
              rw [hN2 (n + 1) (by omega)]
            exact ⟨max N1 N2, hN.trans (le_max_left _ _), fun n hn => (hval n hn).trans (hval _ le_rfl).symm⟩
      · refine ⟨N1, hN, fun n hn => ?_⟩
        rw [calcSphere.eq_def, calcSphere.eq_def, hlev n hn, hl]
        simp only [bind, Except.bind]
        rw [dif_neg hcond, dif_neg hcond]

theorem start_weight {a : Init.Args nt} {p : Init.Props0 nt} (hp : Init.initializeTraj a = .ok p) (i : ℕ) (j : Fin nt) : p.weight0 i j = 1 := by
  have key : ∀ r0 th c s q, Init.enter a r0 th c s = .ok q → q.weight0 i j = 1 := by
    intro r0 th c s q h
    unfold Init.enter at h
    split at h
    · injection h with h; rw [← h]
    · split at h
      · cases h
      · injection h with h; rw [← h]
  unfold Init.initializeTraj at hp
  split at hp
  · split at hp
    · cases hp
    · split at hp
      · cases hp
      · split at hp
        · cases hp
        · exact key _ _ _ _ _ hp
  · split at hp
    · cases hp
    · exact key _ _ _ _ _ hp
  · cases hp

/-- C146 (a).  **Without absorption the result for a sphere settles.**  For every sphere and all random numbers, whatever is done with the light sent
back inside (shared out, or run again, with any limits), there is a number of events from which on the complete result, including the contribution
of every photon, does not change any more. -/
theorem C146_lossless_settles_partial (a : Init.Args nt) (S : Sampling nt num) (d : SphereArgs) (draws : ℕ → Draws nt num) (hmu : S.mu_abs = 0) :
    ∃ N, ∀ nev, N ≤ nev → runSphere nev a S d draws = runSphere N a S d draws := by
  have hsim : (∃ e, ∀ n, 2 ≤ n → simulate n a S = .error e) ∨ ∃ (t : ℕ → Trajs nt) (W : Fin nt → XF), (∀ n, 2 ≤ n → simulate n a S = .ok (t n)) ∧
      Coherent 2 (fun n => ⟨(t n).position, (t n).direction, fun i j => fin ((t n).weight i j)⟩) W := by
    unfold simulate
    cases hp : Init.initializeTraj a with
    | error e => exact Or.inl ⟨e, fun n _ => rfl⟩
    | ok p =>
      by_cases hc : choiceOk (probTheta S.p S.min_angle)
      · cases hs : sampleStep nt S.mu_scat S.mu_scat_mie S.fine_roughness S.rand_step S.rand_mie with
        | error e =>
          refine Or.inl ⟨e, fun n _ => ?_⟩
          simp only [sampleAngles1, hc, or_true, if_true, bind, Except.bind]
        | ok s =>
          right
          simp only [sampleAngles1, hc, or_true, if_true, bind, Except.bind, pure, Except.pure]
          refine ⟨_, fun j => fin 1, fun n _ => rfl, fun n n' h2 h => ?_, fun n n' h2 h => ?_, fun n _ i j => ?_⟩
          · exact (prefix_walk (by omega) h _ _ _ _ _ _ _).2
          · exact (prefix_walk (by omega) h _ (fun _ _ => V3.zero) _ _ _ _ (fun _ _ => 0)).1
          · simp [absorb, hmu, start_weight hp]
      · refine Or.inl ⟨.valueError, fun n hn => ?_⟩
        have e1 : n - 1 ≠ 0 := by omega
        simp only [sampleAngles1, hc, e1, or_false, if_false, bind, Except.bind]
  rcases hsim with ⟨e, he⟩ | ⟨t, W, ht, hcoh⟩
  · refine ⟨2, fun n hn => ?_⟩
    simp only [runSphere, he n hn, he 2 le_rfl, bind, Except.bind]
  · obtain ⟨N, h2, hN⟩ := settle_core d.thickness ⟨S.p, S.mu_scat, S.mu_scat_mie, S.mu_abs⟩ hmu draws d.run_fresnel_traj d.max_stuck d.nested _ d.optics
      d.max_call_depth 0 _ W 2 rfl hcoh
    refine ⟨N, fun n hn => ?_⟩
    simp only [runSphere, ht n (h2.trans hn), ht N h2, bind, Except.bind]
    exact hN n hn

open MeasureTheory ProbabilityTheory

theorem unif_Iic {c : ℝ} (h1 : c ≤ 1) : unif (Set.Iic c) = ENNReal.ofReal c := by
  unfold unif
  rw [Measure.restrict_apply measurableSet_Iic]
  rcases h1.lt_or_eq with h | h
  · have : Set.Iic c ∩ Set.Ico 0 1 = Set.Icc 0 c := by
      ext x
      simp only [Set.mem_inter_iff, Set.mem_Iic, Set.mem_Ico, Set.mem_Icc]
      exact ⟨fun h => ⟨h.2.1, h.1⟩, fun h' => ⟨h'.2, h'.1, h'.2.trans_lt h⟩⟩
    rw [this, Real.volume_Icc, sub_zero]
  · have : Set.Iic c ∩ Set.Ico 0 1 = Set.Ico 0 1 := by
      ext x
      simp only [Set.mem_inter_iff, Set.mem_Iic, Set.mem_Ico, h]
      exact ⟨fun h => h.2, fun h' => ⟨h'.2.le, h'⟩⟩
    rw [this, Real.volume_Ico, sub_zero, h]

/-- a step that stays inside the sphere is not longer than its diameter -/
theorem inside_step {D s : ℝ} (hD : 0 < D) {p q k : V3} (hk : k.normSq = 1) (hstep : V3.sub q p = V3.smul s k)
    (hp : (V3.sub p ⟨0, 0, D / 2⟩).normSq ≤ D / 2 * (D / 2)) (hq : (V3.sub q ⟨0, 0, D / 2⟩).normSq ≤ D / 2 * (D / 2)) : s ≤ D := by
  have e1 : V3.sub q p = V3.sub (V3.sub q ⟨0, 0, D / 2⟩) (V3.sub p ⟨0, 0, D / 2⟩) := by ext <;> simp [V3.sub]
  rw [e1] at hstep
  generalize V3.sub q ⟨0, 0, D / 2⟩ = u at *
  generalize V3.sub p ⟨0, 0, D / 2⟩ = v at *
  have h2 : s ^ 2 = (V3.sub u v).normSq := by
    rw [hstep]
    simp only [V3.normSq, V3.dot, V3.smul] at hk ⊢
    linear_combination (-s ^ 2) * hk
  have h3 : (V3.sub u v).normSq ≤ 2 * u.normSq + 2 * v.normSq := by
    simp only [V3.normSq, V3.dot, V3.sub]
    nlinarith [sq_nonneg (u.x + v.x), sq_nonneg (u.y + v.y), sq_nonneg (u.z + v.z)]
  nlinarith

/-- C146 (b).  **Every photon leaves the sphere sooner or later.**  The probability that a photon has not left a sphere of diameter `D` after `nev` events
is at most `(1 - exp(-mu D))^nev`, whatever the phase function, the illumination and the indices. -/
theorem C146_light_leaves {Ω : Type} [MeasurableSpace Ω] (P : Measure Ω) [IsProbabilityMeasure P] (U : ℕ × Fin nt → Ω → ℝ) (hU : UniformDraws P U)
    (a : Ω → Init.Args nt) (S : Ω → Sampling nt num) (d : SphereArgs) (draws : Ω → ℕ → Draws nt num)
    (H : ∀ ω, SphereDomain (a ω) (S ω) d (draws ω)) {mu : ℝ} (hmu : ∀ ω, (S ω).mu_scat = mu)
    (hmie : ∀ ω, (S ω).mu_scat_mie = none ∨ (S ω).fine_roughness = 0) (hstep : ∀ ω i j, (S ω).rand_step i j = U (i, j) ω)
    (nev : ℕ) (t : Ω → Trajs nt) (ht : ∀ ω, simulate nev (a ω) (S ω) = .ok (t ω)) (j : Fin nt) :
    P.real {ω | ∀ m, m ≤ nev → ¬ IsOutside d.thickness (t ω).position j m} ≤ (1 - Real.exp (-(mu * d.thickness))) ^ nev := by
  obtain ⟨ω0⟩ : Nonempty Ω := by
    by_contra h
    rw [not_nonempty_iff] at h
    have := (inferInstance : IsProbabilityMeasure P).measure_univ
    rw [Set.eq_empty_of_isEmpty (Set.univ : Set Ω), measure_empty] at this
    exact zero_ne_one this
  have hm : 0 < mu := hmu ω0 ▸ (H ω0).mu_scat
  have hD := (H ω0).diameter_pos
  set c := 1 - Real.exp (-(mu * d.thickness)) with hc
  have hc0 : 0 ≤ c := by
    have : Real.exp (-(mu * d.thickness)) ≤ 1 := Real.exp_le_one_iff.mpr (by have := mul_pos hm hD; linarith)
    linarith
  have hc1 : c ≤ 1 := by have := Real.exp_pos (-(mu * d.thickness)); linarith
  have hsub : {ω | ∀ m, m ≤ nev → ¬ IsOutside d.thickness (t ω).position j m} ⊆ ⋂ i ∈ Finset.range nev, (U (i, j)) ⁻¹' Set.Iic c := by
    intro ω hω
    rw [Set.mem_iInter₂]
    intro i hi
    rw [Finset.mem_range] at hi
    have Hω := H ω
    have hmed : 0 < (a ω).n_medium := by rw [Hω.same_medium]; exact Hω.medium_pos
    have hle : (a ω).n_medium ≤ (a ω).n_sample := by rw [Hω.same_medium, Hω.same_sample]; exact Hω.not_denser
    have hok : ∃ p, Init.initializeTraj (a ω) = .ok p := by
      unfold Init.initializeTraj
      rw [Hω.sphere]
      simp only [Hω.diameter, Init.enter, if_pos Hω.smooth]
      exact ⟨_, rfl⟩
    obtain ⟨p, hp⟩ := hok
    have hdir := C37_sphere_direction_partial (a ω) Hω.sphere Hω.smooth Hω.diameter Hω.diameter_pos Hω.spot.1 Hω.spot.2 hmed hle Hω.draw_r p hp
    obtain ⟨ang, hang, _, _, hcons⟩ := C35_sample_angles_1d (nt := nt) nev (S ω).p (S ω).min_angle (S ω).draw_theta (S ω).rand_phi Hω.phase
      Hω.min_angle.1 Hω.min_angle.2 Hω.phase_pos Hω.rand_phi
    have hs : sampleStep nt (S ω).mu_scat (S ω).mu_scat_mie (S ω).fine_roughness (S ω).rand_step (S ω).rand_mie =
        .ok fun i j => fin (-Real.log (1 - U (i, j) ω)) / fin mu := by
      unfold sampleStep
      rw [if_neg (by push Not; exact ⟨Hω.fine_step.2, Hω.fine_step.1⟩)]
      simp only [hmu, hstep]
      rcases hmie ω with h | h
      · rw [h]
      · cases (S ω).mu_scat_mie with
        | none => rfl
        | some mm => simp [h, pyRound]
    have hu := Hω.rand_step i j
    rw [hstep] at hu
    have hval : ∀ v : V3, valV (ofV3 v) = v := fun _ => rfl
    have htω := ht ω
    simp only [simulate, hp, hang, hs, Bind.bind, Except.bind, Pure.pure, Except.pure, fin_div _ hm.ne', val] at htω
    injection htω with htω
    obtain ⟨q, k, -, -, h3, hk1, -⟩ := hdir j
    have hunit : ((t ω).direction i j).normSq = 1 := by
      rw [← htω]
      dsimp only
      rw [(C32_scatter_unit nev (fun i j => valV (p.k0 i j)) ang.sintheta ang.costheta ang.sinphi ang.cosphi hcons).2.1 i j hi, h3, hval, hk1]
    have hmove : V3.sub ((t ω).position (i + 1) j) ((t ω).position i j) = V3.smul (-Real.log (1 - U (i, j) ω) / mu) ((t ω).direction i j) := by
      rw [← htω]
      exact (C33_move_steps _ _ _ i j).2
    have hin : ∀ m, m ≤ nev → (V3.sub ((t ω).position m j) ⟨0, 0, d.thickness / 2⟩).normSq ≤ d.thickness / 2 * (d.thickness / 2) := fun m hmn =>
      not_lt.mp (hω m hmn)
    have hs := inside_step hD hunit hmove (hin i (by omega)) (hin (i + 1) hi)
    rw [div_le_iff₀ hm] at hs
    have h1 : 0 < 1 - U (i, j) ω := by linarith [hu.2]
    have : Real.exp (-(mu * d.thickness)) ≤ 1 - U (i, j) ω := by
      rw [← Real.le_log_iff_exp_le h1]
      linarith
    rw [Set.mem_preimage, Set.mem_Iic, hc]
    linarith
  have hprod : P (⋂ i ∈ Finset.range nev, (U (i, j)) ⁻¹' Set.Iic c) = ENNReal.ofReal (c ^ nev) := by
    have hind : iIndepFun (fun i => U (i, j)) P := hU.indep.precomp (g := fun i : ℕ => (i, j)) fun x y h => (Prod.mk.inj h).1
    rw [hind.measure_inter_preimage_eq_mul (Finset.range nev) fun _ _ => measurableSet_Iic]
    have : ∀ i ∈ Finset.range nev, P ((U (i, j)) ⁻¹' Set.Iic c) = ENNReal.ofReal c := by
      intro i _
      rw [← Measure.map_apply (hU.meas _) measurableSet_Iic, hU.law]
      exact unif_Iic hc1
    rw [Finset.prod_congr rfl this, Finset.prod_const, Finset.card_range, ENNReal.ofReal_pow hc0]
  refine ENNReal.toReal_le_of_le_ofReal (pow_nonneg hc0 _) ?_
  exact (measure_mono hsub).trans hprod.le

/-- steps of the photon of C146 (c): 1/5 into the sphere, then 1 sideways -/
def tirStep : ℕ → Fin 1 → ℝ := fun i _ => if i = 0 then 1 / 5 else 1
/-- directions of the photon of C146 (c) -/
def tirDir : ℕ → Fin 1 → V3 := fun i _ => if i = 0 then ⟨0, 0, 1⟩ else ⟨1, 0, 0⟩
/-- the photon of C146 (c), moved and absorbed as the program does -/
def tirTrajs (mu : ℝ) : SphTrajs 1 :=
  ⟨move (fun _ _ => V3.zero) tirStep tirDir, tirDir, fun i j => fin (absorb (fun _ _ => 1) mu tirStep i j)⟩

theorem tir_pos (i : ℕ) (j : Fin 1) : move (fun _ _ => V3.zero) tirStep tirDir (i + 1) j = ⟨i, 0, 1 / 5⟩ := by
  induction i with
  | zero =>
    have h := (C33_move_steps (fun _ _ => V3.zero) tirStep tirDir 0 j)
    have e0 := h.1
    have e1 := h.2
    rw [e0] at e1
    generalize move (fun _ _ => V3.zero) tirStep tirDir (0 + 1) j = z at e1 ⊢
    simp only [V3.sub, V3.smul, tirStep, tirDir, V3.mk.injEq, if_true, V3.zero] at e1
    ext <;> simp only [Nat.cast_zero] <;> linarith [e1.1, e1.2.1, e1.2.2]
  | succ n ih =>
    have e1 := (C33_move_steps (fun _ _ => V3.zero) tirStep tirDir (n + 1) j).2
    rw [ih] at e1
    generalize move (fun _ _ => V3.zero) tirStep tirDir (n + 1 + 1) j = z at e1 ⊢
    simp only [V3.sub, V3.smul, tirStep, tirDir, V3.mk.injEq, if_neg (Nat.succ_ne_zero n)] at e1
    ext <;> push_cast <;> linarith [e1.1, e1.2.1, e1.2.2]

theorem tir_cum (i : ℕ) : cumsum (fun n => tirStep n 0) i = 1 / 5 + i := by
  induction i with
  | zero => simp [cumsum, tirStep]
  | succ n ih => rw [cumsum, ih]; simp only [tirStep, if_neg (Nat.succ_ne_zero n)]; push_cast; ring

theorem tir_leaves {n : ℕ} {j : Fin 1} {e : Fin (n + 1)}
    (h : LeavesBall 1 ⟨0, 0, 1⟩ (fun r : Fin (n + 2) => (tirTrajs mu).position r j) e) : e.val = 1 := by
  obtain ⟨h1, h2⟩ := h
  dsimp only at h1 h2
  have p1 : ∀ e : Fin (n + 1), (tirTrajs mu).position e.succ.val j = ⟨e.val, 0, 1 / 5⟩ := fun e => by
    rw [Fin.val_succ]; exact tir_pos _ _
  rcases Nat.lt_trichotomy e.val 1 with h | h | h
  · have : e.val = 0 := by omega
    rw [p1, this] at h1
    norm_num [V3.sub, V3.normSq, V3.dot] at h1
  · exact h
  · have := h2 ⟨1, by omega⟩ (by rw [Fin.lt_def]; exact h)
    rw [p1] at this
    norm_num [V3.sub, V3.normSq, V3.dot] at this

theorem tir_exit (j : Fin 1) : SphereExit 1 (V3.sub ((tirTrajs mu).position 1 j) ⟨0, 0, 1⟩) (V3.sub ((tirTrajs mu).position (1 + 1) j) ⟨0, 0, 1⟩)
    ((tirTrajs mu).direction 1 j) ⟨3 / 5, 0, -(4 / 5)⟩ := by
  have p1 : (tirTrajs mu).position 1 j = ⟨0, 0, 1 / 5⟩ := (tir_pos 0 j).trans (by norm_num)
  have p2 : (tirTrajs mu).position (1 + 1) j = ⟨1, 0, 1 / 5⟩ := (tir_pos 1 j).trans (by norm_num)
  have k1 : (tirTrajs mu).direction 1 j = ⟨1, 0, 0⟩ := by simp [tirTrajs, tirDir]
  rw [p1, p2, k1]
  refine ⟨one_pos, by norm_num [V3.normSq, V3.dot, V3.sub], by norm_num [V3.normSq, V3.dot, V3.sub], ?_,
      by norm_num [V3.normSq, V3.dot], ⟨1, by norm_num, ?_⟩, ⟨3 / 5, by norm_num, ?_⟩, by norm_num [V3.normSq, V3.dot]⟩
  · norm_num [Geometry.Bounded, V3.sub, abs_of_pos]
  · ext <;> norm_num [V3.sub, V3.smul]
  · ext <;> norm_num [V3.add, V3.sub, V3.smul]

theorem trans_one_trapped {p : Fin 1 → Photon} {a : ℝ} (h2 : (p 0).outR = 0) (h3 : (p 0).outT = 0) (h4 : (p 0).trapped = a) :
    Photon.transSphere p 0 = a / 2 := by
  have hshare : Photon.shareT p = 1 := by
    simp only [Photon.shareT, Photon.escapedT, Finset.univ_unique, Finset.sum_singleton, Fin.default_eq_zero, h3, zero_mul, ite_self]
    exact div_self (by positivity)
  simp only [Photon.transSphere, Photon.unknown, hshare, h2, h3, h4, zero_mul, ite_self]
  norm_num

/-- **C146, refuted for absorbing spheres.**  A photon goes 1/5 into a glass sphere of radius 1, turns sideways and reaches the surface beyond the
critical angle during its second event: it is outside from then on.  The transmittance nevertheless depends on how many more events are simulated: it
is `c exp(-mu (n - 4/5))` after `n` events, and so tends to 0. -/
theorem C146_absorbing_refuted {mu : ℝ} (hmu : 0 < mu) (m : Medium num) (draws : ℕ → Draws 1 num) (max_stuck : ℝ) (on : Optics) (maxDepth : ℕ) :
    (∀ i, 2 ≤ i → IsOutside 2 (tirTrajs mu).position 0 i) ∧
    ∃ c > 0, (∀ n, 1 ≤ n → ∃ rt, calcSphere 2 m draws false max_stuck on ⟨1, 3 / 2, 3 / 2, none, none, Real.pi / 2⟩ maxDepth 0 n (tirTrajs mu) = .ok rt ∧
        rt.T = fin (c * Real.exp (-(mu * (n - 4 / 5))))) ∧
      Filter.Tendsto (fun n : ℕ => c * Real.exp (-(mu * (n - 4 / 5)))) Filter.atTop (nhds 0) := by
  refine ⟨?_, batchPass / 2, ?_, ?_, ?_⟩
  · intro i hi
    obtain ⟨k, rfl⟩ : ∃ k, i = k + 1 := ⟨i - 1, by omega⟩
    have hk : (1 : ℝ) ≤ k := by exact_mod_cast (show 1 ≤ k by omega)
    unfold IsOutside
    rw [show (tirTrajs mu).position (k + 1) 0 = ⟨k, 0, 1 / 5⟩ from tir_pos k 0]
    simp only [V3.sub, V3.normSq, V3.dot]
    nlinarith
  · have : 0 < batchPass := by norm_num [batchPass]
    linarith
  · intro n hn
    obtain ⟨nev, rfl⟩ : ∃ k, n = k + 1 := ⟨n - 1, by omega⟩
    have H : BallBundle 1 (tirTrajs mu) (nev + 1) (fun e j => absorb (fun _ _ => 1) mu tirStep e j) (fun _ => ⟨3 / 5, 0, -(4 / 5)⟩) := by
      refine ⟨fun j => ?_, fun j => ?_, fun j => ?_, fun j e hl => ?_, fun e j => rfl⟩
      · have : (tirTrajs mu).position 0 j = V3.zero := (C33_move_steps (fun _ _ => V3.zero) tirStep tirDir 0 j).1
        rw [this]
        norm_num [V3.sub, V3.normSq, V3.dot, V3.zero]
      · norm_num [tirTrajs, tirDir, V3.normSq, V3.dot]
      · have : (tirTrajs mu).position 0 j = V3.zero := (C33_move_steps (fun _ _ => V3.zero) tirStep tirDir 0 j).1
        rw [this]
        norm_num [tirTrajs, tirDir, V3.sub, V3.smul, V3.dot, V3.zero]
      · have he := tir_leaves hl
        rw [he]
        exact tir_exit j
    have hcr : (V3.cross (V3.smul (1 / 1) (⟨3 / 5, 0, -(4 / 5)⟩ : V3)) ⟨1, 0, 0⟩).norm = 4 / 5 := by
      refine Geometry.norm_eq_of_normSq (by norm_num) ?_
      norm_num [V3.normSq, V3.dot, V3.cross, V3.smul]
    have hkz : ∀ j : Fin 1, ExitKzIs 1 (3 / 2) 1 (fun r : Fin (nev + 2) => (tirTrajs mu).position r j) (fun e : Fin (nev + 1) => (tirTrajs mu).direction e j)
        (fun _ => none) := by
      intro j e hl
      have he := tir_leaves hl
      have := (C24_sphere_tir_partial (tir_exit (mu := mu) j) (n1 := 3 / 2) (n2 := 1) (by norm_num) one_pos).2 (by
        rw [show (tirTrajs mu).direction 1 j = ⟨1, 0, 0⟩ by simp [tirTrajs, tirDir], hcr]; norm_num)
      simp only [exitKzOf, Fin.val_castSucc, Fin.val_succ, he]
      exact this
    have hf : ∀ j : Fin 1, IsBallFate 1 ⟨0, 0, 1⟩ (fun r : Fin (nev + 2) => (tirTrajs mu).position r j) (fun _ => none) .trapped :=
      fun j e _ => Or.inl rfl
    obtain ⟨rt, h, -, -, -, hT⟩ := C109_sphere_estimator one_pos one_pos (o := ⟨1, 3 / 2, 3 / 2, none, none, Real.pi / 2⟩) on
      ⟨one_pos, by norm_num, fun x hx => (nomatch hx), fun x hx => (nomatch hx)⟩ (by norm_num) m draws max_stuck maxDepth H hkz hf
    refine ⟨rt, by rw [mul_one] at h; exact h, ?_⟩
    rw [hT, Finset.univ_unique, Finset.sum_singleton, Fin.default_eq_zero, fin_inj]
    have hpos0 : (tirTrajs mu).position 0 0 = V3.zero := (C33_move_steps (fun _ _ => V3.zero) tirStep tirDir 0 0).1
    have hang : Real.arccos (V3.dot (V3.smul (-1 / 1) (V3.sub ((tirTrajs mu).position 0 0) ⟨0, 0, 1⟩)) ((tirTrajs mu).direction 0 0)) = 0 := by
      rw [hpos0]
      norm_num [tirTrajs, tirDir, V3.sub, V3.smul, V3.dot, V3.zero]
    have hpass : platePass 1 none (3 / 2) 0 = batchPass := batch_pass.1
    rw [trans_one_trapped (a := batchPass * Real.exp (-(mu * (1 / 5 + nev)))) ?_ ?_ ?_]
    · push_cast
      rw [show mu * ((nev : ℝ) + 1 - 4 / 5) = mu * (1 / 5 + nev) by ring]
      ring
    · simp [ballPhotons, Fate.reflEvent, valueAt]
    · simp [ballPhotons, Fate.transEvent, valueAt]
    · simp only [ballPhotons, Fate.lastEvent, valueAt, Optics.medium, hang, hpass, absorb, Fin.val_last, tir_cum, one_mul]
  · rw [show (0 : ℝ) = batchPass / 2 * 0 by ring]
    refine Filter.Tendsto.const_mul _ ?_
    refine Real.tendsto_exp_neg_atTop_nhds_zero.comp ?_
    refine Filter.Tendsto.const_mul_atTop hmu ?_
    exact Filter.tendsto_atTop_add_const_right _ _ tendsto_natCast_atTop_atTop

/-- Non-vacuity of C146: for the sphere of `demo_sphereRun`, without absorption, the events that suffice exist (a); and its photons may be drawn from
independent uniform numbers (b). -/
example : ∃ (Ω : Type) (_ : MeasurableSpace Ω) (P : Measure Ω) (U : ℕ × Fin 1 → Ω → ℝ) (a : Ω → Init.Args 1) (S : Ω → Sampling 1 3) (d : SphereArgs)
    (draws : Ω → ℕ → Draws 1 3) (t : ℕ → Ω → Trajs 1), IsProbabilityMeasure P ∧ UniformDraws P U ∧ (∀ ω, SphereDomain (a ω) (S ω) d (draws ω)) ∧
    (∀ ω, (S ω).mu_scat = 1) ∧ (∀ ω, (S ω).mu_abs = 0) ∧ (∀ ω, (S ω).mu_scat_mie = none ∨ (S ω).fine_roughness = 0) ∧
    (∀ ω i j, (S ω).rand_step i j = U (i, j) ω) ∧ (∀ n ω, simulate (n + 1) (a ω) (S ω) = .ok (t n ω)) ∧ d.thickness = 2 := by
  obtain ⟨Ω, mΩ, P, U, hP, hU, hr⟩ := uniformDraws_in_range (ℕ × Fin 1)
  have h := demo_sphereRun 0 le_rfl
  have H : ∀ ω, SphereDomain _ { demoSampling 0 with rand_step := fun i j => U (i, j) ω } _ _ := fun ω =>
    { h with rand_step := fun i j => hr (i, j) ω }
  choose t ht using fun (n : ℕ) ω => sphere_simulate (H ω) (n + 1)
  exact ⟨Ω, mΩ, P, U, _, _, _, _, t, hP, hU, H, fun _ => rfl, fun _ => rfl, fun _ => Or.inl rfl, fun _ _ _ => rfl, fun n ω => (ht n ω).1, rfl⟩

end
end Verif.Props
