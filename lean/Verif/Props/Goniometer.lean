import Verif.Props.Estimator
import Verif.Props.Simulation
import Verif.Props.Geometry3

/-!
# C138: goniometer readings

`calc_refl_trans` of a film with `detector=True`, for the same simulated photons and different detectors, and without.
-/

namespace Verif.Props
noncomputable section
open Classical XF Root Verif.Spec Verif.Geometry Verif.Simulation Verif.Init Verif.Fresnel
open Verif.Weights (Optics FilmOK RIn filmShadow film_cases dcR filmR filmT)

variable {nt num : ℕ}

/-! ### fewer counted photons -/

/-- `c` arises from `c'` by counting fewer reflected photons -/
private structure Fewer (c c' : RIn nt) : Prop where
  good : c.Good
  good' : c'.Good
  i : c.i = c'.i
  t : c.t = c'.t
  s : c.s = c'.s
  pt : c.pt = c'.pt
  θt : c.θt = c'.θt
  r : ∀ j, c.r j = 0 ∨ (c.r j = c'.r j ∧ c.pr j = c'.pr j ∧ c.θr j = c'.θr j)

namespace Fewer
variable {c c' : RIn nt} (F : Fewer c c')
include F

private theorem Pt : c.Pt = c'.Pt := by funext j; simp only [RIn.Pt, F.t, F.pt]
private theorem ft : c.ft = c'.ft := by funext j; simp only [RIn.ft, F.Pt, F.t]
private theorem dt (ns nm th : ℝ) : c.dt ns nm th = c'.dt ns nm th := by funext j; simp only [RIn.dt, F.Pt, F.θt]
private theorem tdf (ns nm th : ℝ) : c.tdf ns nm th = c'.tdf ns nm th := by simp only [RIn.tdf, F.dt, F.Pt]
private theorem Pr (j : Fin nt) : c.Pr j ≤ c'.Pr j := by
  rcases F.r j with h | ⟨h1, h2, -⟩
  · have : c.Pr j = 0 := by simp only [RIn.Pr, h, zero_mul]
    rw [this]; exact F.good'.Pr0 j
  · simp only [RIn.Pr, h1, h2, le_refl]
private theorem fr (j : Fin nt) : c.fr j ≤ c'.fr j := by
  rcases F.r j with h | ⟨h1, h2, -⟩
  · have : c.fr j = 0 := by simp only [RIn.fr, RIn.Pr, h, zero_mul, sub_zero]
    rw [this]; exact F.good'.fr0 j
  · simp only [RIn.fr, RIn.Pr, h1, h2, le_refl]
private theorem dr (ns nm th : ℝ) (j : Fin nt) : c.dr ns nm th j ≤ c'.dr ns nm th j := by
  rcases F.r j with h | ⟨h1, h2, h3⟩
  · have h0 : c.Pr j = 0 := by simp only [RIn.Pr, h, zero_mul]
    have : c.dr ns nm th j = 0 := by
      have h5 := F.good.dr_le ns nm th j
      have h6 := F.good.dr0 ns nm th j
      rw [h0] at h5; exact le_antisymm h5 h6
    rw [this]; exact F.good'.dr0 ns nm th j
  · simp only [RIn.dr, RIn.Pr, h1, h2, h3, le_refl]

private theorem known : c'.known ≤ c.known := by
  refine Finset.sum_le_sum fun j _ => ?_
  have e : ∀ c : RIn nt, c.a j + c.Pr j + c.Pt j = c.i j - c.s j - c.fr j - c.ft j := fun c => by
    simp only [RIn.a, RIn.fr, RIn.ft]; ring
  rw [e, e, F.ft, F.i, F.s]
  have := F.fr j
  linarith

private theorem rf (hk : c'.known ≠ 0) : c.rf ≤ c'.rf := by
  have hk0 : 0 < c'.known := lt_of_le_of_ne F.good'.known0 hk.symm
  exact div_le_div₀ (Finset.sum_nonneg fun j _ => F.good'.Pr0 j) (Finset.sum_le_sum fun j _ => F.Pr j) hk0 F.known

private theorem tf (hk : c'.known ≠ 0) : c.tf ≤ c'.tf := by
  have hk0 : 0 < c'.known := lt_of_le_of_ne F.good'.known0 hk.symm
  unfold RIn.tf
  rw [F.Pt]
  exact div_le_div_of_nonneg_left (Finset.sum_nonneg fun j _ => F.good'.Pt0 j) hk0 F.known

private theorem rfrdf (hk : c'.known ≠ 0) (ns nm th : ℝ) : c.rf * c.rdf ns nm th ≤ c'.rf * c'.rdf ns nm th := by
  have hk0 : 0 < c'.known := lt_of_le_of_ne F.good'.known0 hk.symm
  have hk1 : 0 < c.known := lt_of_lt_of_le hk0 F.known
  have hE : 0 < EPS := EPS_pos
  have e : ∀ c : RIn nt, c.rf * c.rdf ns nm th =
      (∑ j, c.Pr j) / max (∑ j, c.Pr j) EPS * (max (∑ j, c.dr ns nm th j) EPS / c.known) := fun c => by
    unfold RIn.rf RIn.rdf; ring
  have hP0 : 0 ≤ ∑ j, c.Pr j := Finset.sum_nonneg fun j _ => F.good.Pr0 j
  have hP : ∑ j, c.Pr j ≤ ∑ j, c'.Pr j := Finset.sum_le_sum fun j _ => F.Pr j
  have hd : ∑ j, c.dr ns nm th j ≤ ∑ j, c'.dr ns nm th j := Finset.sum_le_sum fun j _ => F.dr ns nm th j
  rw [e, e]
  refine mul_le_mul ?_ (div_le_div₀ ?_ (max_le_max hd le_rfl) hk0 F.known) ?_ ?_
  · have m1 := RIn.maxEPS_pos (∑ j, c.Pr j)
    have m2 := RIn.maxEPS_pos (∑ j, c'.Pr j)
    rw [div_le_div_iff₀ m1 m2]
    rcases le_total (∑ j, c.Pr j) EPS with h | h
    · rw [max_eq_right h]
      rcases le_total (∑ j, c'.Pr j) EPS with h' | h'
      · rw [max_eq_right h']; exact mul_le_mul_of_nonneg_right hP hE.le
      · rw [max_eq_left h', mul_comm]; exact mul_le_mul_of_nonneg_left h (hE.le.trans h')
    · rw [max_eq_left h, max_eq_left (h.trans hP), mul_comm]
  · exact (RIn.maxEPS_pos _).le
  · exact div_nonneg (RIn.maxEPS_pos _).le hk1.le
  · exact div_nonneg (hP0.trans hP) (RIn.maxEPS_pos _).le

/-- contribution of a photon to the goniometer reading -/
private theorem refl_le (hk : c'.known ≠ 0) (ns nm th : ℝ) (j : Fin nt) :
    c.dr ns nm th j + c.er true j * c.rdf ns nm th ≤ c'.dr ns nm th j + c'.er true j * c'.rdf ns nm th := by
  have h1 := F.dr ns nm th j
  have h2 : c.fr j * (c.rf * c.rdf ns nm th) ≤ c'.fr j * (c'.rf * c'.rdf ns nm th) :=
    mul_le_mul (F.fr j) (F.rfrdf hk ns nm th) (mul_nonneg F.good.rf0 (F.good.rdf0 ns nm th)) (F.good'.fr0 j)
  simp only [RIn.er, if_true]
  rw [mul_assoc, mul_assoc]
  linarith

private theorem trans_le (hk : c'.known ≠ 0) (ns nm th : ℝ) (j : Fin nt) :
    c.dt ns nm th j + c.et j * c.tdf ns nm th ≤ c'.dt ns nm th j + c'.et j * c'.tdf ns nm th := by
  rw [F.dt, F.tdf]
  have h1 : c.et j ≤ c'.et j := by
    simp only [RIn.et, F.ft, F.s]
    have h2 := mul_le_mul_of_nonneg_left (F.rf hk) (F.good'.ft0 j)
    have h3 := mul_le_mul (F.fr j) (F.tf hk) F.good.tf0 (F.good'.fr0 j)
    linarith
  have := mul_le_mul_of_nonneg_right h1 (F.good'.tdf0 ns nm th)
  linarith
end Fewer

/-! ### the film call with a goniometer -/

private theorem angles_abs {nev : ℕ} {k k' : Fin nev → Fin nt → ℝ} (h : ∀ e j, |k e j| = |k' e j|) (idx : Fin nt → ℕ) :
    Weights.getAnglesFilm k idx = Weights.getAnglesFilm k' idx := by
  funext j
  simp only [Weights.getAnglesFilm, Weights.angleFilm, abs_fin]
  congr 2
  unfold Root.sel
  split
  · exact h _ _
  · rfl

private theorem tir_abs (col : ℕ → ℝ) (ev i : ℕ) : |selectTirTraj col ev i| = |col i| := by
  cases i with
  | zero => simp [selectTirTraj, tirInit]
  | succ i =>
    have key : ∀ (c o : ℝ) [Decidable (o = 0)], (o = -c ∨ o = c ∨ o = 0) → |if o = 0 then c else o| = |c| := by
      intro c o _ h
      split
      · rfl
      · rcases h with h | h | h
        · rw [h, abs_neg]
        · rw [h]
        · contradiction
    rw [selectTirTraj]
    apply key
    split
    · exact Or.inl rfl
    · unfold tirInit
      rw [if_neg (Nat.succ_ne_zero i)]
      split
      · exact Or.inr (Or.inl rfl)
      · exact Or.inr (Or.inr rfl)

/-- the goniometer as a filter of the reflected photons -/
private theorem gonio_filter (nev : ℕ) (d : DetArgs) (t : Trajs nt) (G : ℝ × ℝ × ℝ) :
    ∃ filter : (Fin nt → ℕ) → Fin nt → ℕ, (∀ f j, filter f j = f j ∨ filter f j = 0) ∧
      gonioGeometry nev d t G.1 G.2.1 G.2.2 = Weights.filmGeometry (nev := nev) d.optics d.thickness d.z_low
        (fun i j => (t.position i j).z) (fun i j => (t.direction i j).z) t.kz0_rot filter := by
  let z : Fin (nev + 2) → Fin nt → ℝ := fun i j => (t.position i j).z
  let kz : Fin (nev + 1) → Fin nt → ℝ := fun i j => (t.direction i j).z
  let X := Exits.findValidExitsFilm d.optics.n_tir d.n_medium d.thickness d.z_low z kz
  let idx := Exits.findEventIndices X.neg X.pos X.tir
  let z' : Fin (nev + 2) → Fin nt → ℝ :=
    fun i j => (shiftTrajTir (fun n => (t.position n j).z) (fun n => (t.direction n j).z) (idx.2.2.2 j)).1 i
  let kz' : Fin (nev + 1) → Fin nt → ℝ :=
    fun i j => (shiftTrajTir (fun n => (t.position n j).z) (fun n => (t.direction n j).z) (idx.2.2.2 j)).2 i
  have hk : ∀ e j, |kz' e j| = |kz e j| := fun e j => tir_abs _ _ _
  have hk0 : kz' 0 = kz 0 := by funext j; simp [kz', kz, shiftTrajTir, selectTirTraj, tirInit]
  refine ⟨fun ri => calcIndicesDetected ri (fun i j => (t.position i j).x) (fun i j => (t.position i j).y) z'
    (fun i j => (t.direction i j).x) (fun i j => (t.direction i j).y) kz' G.1 G.2.1 G.2.2 d.n_sample d.n_medium, ?_, ?_⟩
  · intro f j
    unfold calcIndicesDetected
    dsimp only
    split
    · exact Or.inl rfl
    · exact Or.inr rfl
  · unfold gonioGeometry Weights.filmGeometry
    have e1 : ∀ ri, Weights.getAnglesFilm kz' ri = Weights.getAnglesFilm kz ri := fun ri => angles_abs hk ri
    simp only [Weights.Geometry.mk.injEq]
    refine ⟨rfl, rfl, rfl, ?_, ?_, ?_, ?_⟩
    · exact congrArg (fun k => Weights.incAngleFilm d.n_medium d.optics.n_tir k t.kz0_rot) hk0
    · exact congrArg (fun (k : Fin nt → ℝ) j => Weights.angleFilm (fin (k j))) hk0
    · exact e1 _
    · exact e1 _

/-- the same call with another goniometer, or without -/
def withGonio (d : DetArgs) (G : Option (ℝ × ℝ × ℝ)) : DetArgs := { d with gonio := G }

/-- Photon `j` of the simulation is counted by the goniometer `G = (det_theta, det_len, det_dist)`: its entry of the
`refl_indices` that `calc_refl_trans(..., detector=True, return_extra=True)` returns is not 0. -/
def CountedBy (nev : ℕ) (a : Args nt) (S : Sampling nt num) (d : DetArgs) (G : ℝ × ℝ × ℝ) (j : Fin nt) : Prop :=
  ∃ t, simulate (nev + 1) a S = .ok t ∧ (gonioGeometry nev d t G.1 G.2.1 G.2.2).ri j ≠ 0

/-- All numbers of the first result are between 0 and the corresponding number of the second: reflectance, transmittance, and
the contribution of every photon to them. -/
def ReadsAtMost (r r' : Weights.RT nt) : Prop :=
  ∃ R T R' T' : ℝ, r.R = fin R ∧ r.T = fin T ∧ r'.R = fin R' ∧ r'.T = fin T' ∧ 0 ≤ R ∧ R ≤ R' ∧ 0 ≤ T ∧ T ≤ T' ∧
    ∀ j, ∃ x y x' y' : ℝ, r.reflPer j = fin x ∧ r.transPer j = fin y ∧ r'.reflPer j = fin x' ∧ r'.transPer j = fin y' ∧
      0 ≤ x ∧ x ≤ x' ∧ 0 ≤ y ∧ y ≤ y'

private theorem fewer_shadow {nev : ℕ} {o : Optics} {th zl : ℝ} {z : Fin (nev + 2) → Fin nt → ℝ}
    {kz w : Fin (nev + 1) → Fin nt → ℝ} {rot : Option (Fin nt → ℝ)} {f f' : (Fin nt → ℕ) → Fin nt → ℕ}
    (H : FilmOK o kz w rot f) (H' : FilmOK o kz w rot f') {i : Fin nt → ℝ} (hi : ∀ j, 0 ≤ i j ∧ i j ≤ 1)
    (hsub : ∀ j, (Weights.filmGeometry o th zl z kz rot f).ri j = 0 ∨
      (Weights.filmGeometry o th zl z kz rot f).ri j = (Weights.filmGeometry o th zl z kz rot f').ri j) :
    Fewer (filmShadow o th zl z kz w rot f i) (filmShadow o th zl z kz w rot f' i) where
  good := Weights.filmShadow_good H hi
  good' := Weights.filmShadow_good H' hi
  i := rfl
  t := rfl
  s := rfl
  pt := rfl
  θt := rfl
  r := by
    intro j
    rcases hsub j with h | h
    · left
      show i j * sel w _ j = 0
      rw [show sel w (Weights.filmGeometry o th zl z kz rot f).ri j = 0 from by
        unfold sel; rw [dif_neg (by rw [h]; omega)], mul_zero]
    · right
      have e : ∀ a : Fin (nev + 1) → Fin nt → ℝ, sel a (Weights.filmGeometry o th zl z kz rot f).ri j =
          sel a (Weights.filmGeometry o th zl z kz rot f').ri j := fun a => by
        unfold sel; simp only [h]
      refine ⟨?_, ?_, ?_⟩
      · show i j * sel w _ j = i j * sel w _ j
        rw [e]
      · show passFrac _ _ _ (Real.arccos |sel kz _ j|) = passFrac _ _ _ (Real.arccos |sel kz _ j|)
        rw [e]
      · show Real.arccos |sel kz _ j| = Real.arccos |sel kz _ j|
        rw [e]

private theorem er_ge {c : RIn nt} (g : c.Good) (det : Bool) (j : Fin nt) : c.er true j ≤ c.er det j := by
  cases det
  · have h1 := mul_nonneg (g.ft0 j) g.tf0
    have h2 := g.s0 j
    simp only [RIn.er, if_true, Bool.false_eq_true, if_false]
    linarith
  · exact le_rfl

/-- two film calls on the same photons, the first counting fewer of them with a goniometer -/
private theorem compare {nev : ℕ} {o : Optics} {th zl : ℝ} {z : Fin (nev + 2) → Fin nt → ℝ}
    {kz w : Fin (nev + 1) → Fin nt → ℝ} {rot refl : Option (Fin nt → ℝ)} {f f' : (Fin nt → ℕ) → Fin nt → ℕ}
    (H : FilmOK o kz w rot f) (H' : FilmOK o kz w rot f') (det' : Bool)
    (hsub : ∀ j, (Weights.filmGeometry o th zl z kz rot f).ri j = 0 ∨
      (Weights.filmGeometry o th zl z kz rot f).ri j = (Weights.filmGeometry o th zl z kz rot f').ri j) :
    ∃ r r', Weights.calcReflTrans o .film (Weights.filmGeometry o th zl z kz rot f) refl true (fun e j => fin (w e j)) = .ok r ∧
      Weights.calcReflTrans o .film (Weights.filmGeometry o th zl z kz rot f') refl det' (fun e j => fin (w e j)) = .ok r' ∧
      ((r'.R = nan ∧ r'.T = nan) ∨ ReadsAtMost r r') := by
  have hnt : (0 : ℝ) < nt := by exact_mod_cast H.nt_pos
  rcases film_cases th zl z refl H true with ⟨hnan, r, hr, h1, h2⟩ | ⟨i, hi01, hi, hgood, hc⟩
  · rcases film_cases th zl z refl H' det' with ⟨-, r', hr', h1', h2'⟩ | ⟨i', -, hi', -⟩
    · exact ⟨r, r', hr, hr', Or.inl ⟨h1', h2'⟩⟩
    · obtain ⟨j, hj⟩ := hnan
      obtain ⟨t, ht, -⟩ := hi' j
      rw [hj] at ht; exact absurd ht (by simp)
  rcases film_cases th zl z refl H' det' with ⟨⟨j, hj⟩, -⟩ | ⟨i', hi01', hi', hgood', hc'⟩
  · obtain ⟨t, ht, -⟩ := hi j
    rw [hj] at ht; exact absurd ht (by simp)
  have hii : i' = i := by
    funext j
    obtain ⟨t, ht, -, -, e⟩ := hi j
    obtain ⟨t', ht', -, -, e'⟩ := hi' j
    rw [ht] at ht'
    obtain rfl := (fin_inj _ _).mp ht'
    rw [e, e']
  subst hii
  have F := fewer_shadow H H' hi01 hsub
  have hr : ∃ r, Weights.calcReflTrans o .film (Weights.filmGeometry o th zl z kz rot f) refl true (fun e j => fin (w e j)) = .ok r := by
    rcases hc with ⟨-, r, hr, -⟩ | ⟨-, r, hr, -⟩ <;> exact ⟨r, hr⟩
  rcases hc' with ⟨-, r', hr', h1', h2'⟩ | ⟨hk', r', hr', hR', hT', hRp', hTp'⟩
  · obtain ⟨r, hr⟩ := hr
    exact ⟨r, r', hr, hr', Or.inl ⟨h1', h2'⟩⟩
  rcases hc with ⟨hk, -⟩ | ⟨hk, r, hr, hR, hT, hRp, hTp⟩
  · have := lt_of_le_of_ne hgood'.known0 (Ne.symm hk')
    have := F.known
    linarith
  have hir : ∀ j, 0 ≤ Weights.irOf o.n_medium (fun j => Real.arccos |kz 0 j|) i' refl o.detection_angle j :=
    fun j => (Weights.irOf_mem (hi01 j).2).1
  have a1 : ∀ j, 0 ≤ (filmShadow o th zl z kz w rot f i').dr o.n_sample o.n_medium o.detection_angle j +
      (filmShadow o th zl z kz w rot f i').er true j * (filmShadow o th zl z kz w rot f i').rdf o.n_sample o.n_medium
        o.detection_angle + (if true = true then 0 else
          Weights.irOf o.n_medium (fun j => Real.arccos |kz 0 j|) i' refl o.detection_angle j) := fun j => by
    have := hgood.dr0 o.n_sample o.n_medium o.detection_angle j
    have := mul_nonneg (hgood.er0 true j) (hgood.rdf0 o.n_sample o.n_medium o.detection_angle)
    simp only [if_true]; linarith
  have a2 : ∀ j, 0 ≤ (filmShadow o th zl z kz w rot f i').dt o.n_sample o.n_medium o.detection_angle j +
      (filmShadow o th zl z kz w rot f i').et j * (filmShadow o th zl z kz w rot f i').tdf o.n_sample o.n_medium
        o.detection_angle := fun j => by
    have := hgood.dt0 o.n_sample o.n_medium o.detection_angle j
    have := mul_nonneg (hgood.et0 j) (hgood.tdf0 o.n_sample o.n_medium o.detection_angle)
    linarith
  have b1 : ∀ j, (filmShadow o th zl z kz w rot f i').dr o.n_sample o.n_medium o.detection_angle j +
      (filmShadow o th zl z kz w rot f i').er true j * (filmShadow o th zl z kz w rot f i').rdf o.n_sample o.n_medium
        o.detection_angle + (if true = true then 0 else
          Weights.irOf o.n_medium (fun j => Real.arccos |kz 0 j|) i' refl o.detection_angle j) ≤
      (filmShadow o th zl z kz w rot f' i').dr o.n_sample o.n_medium o.detection_angle j +
      (filmShadow o th zl z kz w rot f' i').er det' j * (filmShadow o th zl z kz w rot f' i').rdf o.n_sample o.n_medium
        o.detection_angle + (if det' = true then 0 else
          Weights.irOf o.n_medium (fun j => Real.arccos |kz 0 j|) i' refl o.detection_angle j) := fun j => by
    have h1 := F.refl_le hk' o.n_sample o.n_medium o.detection_angle j
    have h2 := mul_le_mul_of_nonneg_right (er_ge hgood' det' j) (hgood'.rdf0 o.n_sample o.n_medium o.detection_angle)
    have h3 := hir j
    simp only [if_true]
    split <;> linarith
  have b2 : ∀ j, (filmShadow o th zl z kz w rot f i').dt o.n_sample o.n_medium o.detection_angle j +
      (filmShadow o th zl z kz w rot f i').et j * (filmShadow o th zl z kz w rot f i').tdf o.n_sample o.n_medium
        o.detection_angle ≤ (filmShadow o th zl z kz w rot f' i').dt o.n_sample o.n_medium o.detection_angle j +
      (filmShadow o th zl z kz w rot f' i').et j * (filmShadow o th zl z kz w rot f' i').tdf o.n_sample o.n_medium
        o.detection_angle := fun j => F.trans_le hk' o.n_sample o.n_medium o.detection_angle j
  refine ⟨r, r', hr, hr', Or.inr ⟨_, _, _, _, hR, hT, hR', hT', ?_, ?_, ?_, ?_, fun j => ⟨_, _, _, _, hRp j, hTp j, hRp' j, hTp' j,
    ?_, ?_, ?_, ?_⟩⟩⟩
  · exact Finset.sum_nonneg fun j _ => div_nonneg (a1 j) hnt.le
  · exact Finset.sum_le_sum fun j _ => div_le_div_of_nonneg_right (b1 j) hnt.le
  · exact Finset.sum_nonneg fun j _ => div_nonneg (a2 j) hnt.le
  · exact Finset.sum_le_sum fun j _ => div_le_div_of_nonneg_right (b2 j) hnt.le
  · exact div_nonneg (a1 j) hnt.le
  · exact div_le_div_of_nonneg_right (b1 j) hnt.le
  · exact div_nonneg (a2 j) hnt.le
  · exact div_le_div_of_nonneg_right (b2 j) hnt.le

/-- the two kinds of call in terms of the event numbers -/
private theorem run_gonio {a : Args nt} {S : Sampling nt num} {d : DetArgs} (H : FilmRun a S d) (nev : ℕ) :
    ∃ t, simulate (nev + 1) a S = .ok t ∧
      (∀ filter : (Fin nt → ℕ) → Fin nt → ℕ, (∀ f j, filter f j = f j ∨ filter f j = 0) →
        FilmOK (nev := nev) d.optics (fun i j => (t.direction i j).z) (fun i j => t.weight i j) t.kz0_rot filter) ∧
      (∀ G : ℝ × ℝ × ℝ, runFilm nev a S (withGonio d (some G)) = Weights.calcReflTrans d.optics .film
        (gonioGeometry nev d t G.1 G.2.1 G.2.2) t.kz0_refl true (fun (i : Fin (nev + 1)) j => fin (t.weight i j))) ∧
      runFilm nev a S (withGonio d none) = Weights.calcReflTrans d.optics .film
        (Weights.filmGeometry (nev := nev) d.optics d.thickness d.z_low (fun i j => (t.position i j).z)
          (fun i j => (t.direction i j).z) t.kz0_rot id) t.kz0_refl false (fun (i : Fin (nev + 1)) j => fin (t.weight i j)) := by
  obtain ⟨t, ht, h1, h2, _, _, _, _, hr, hr1, _⟩ := simulate_facts H nev
  refine ⟨t, ht, fun filter hf => filmOK_of H h1 h2 hr1 hf, fun G => ?_, ?_⟩
  · have hrun : runFilm nev a S (withGonio d (some G)) = Simulation.calcReflTransFilm nev (withGonio d (some G)) t := by
      simp only [runFilm, ht, bind, Except.bind]
    rw [hrun]
    have hro : Weights.roughnessArgs t.kz0_rot t.kz0_refl = .ok () := by
      unfold Weights.roughnessArgs
      cases h3 : t.kz0_rot <;> cases h4 : t.kz0_refl <;> simp [h3, h4] at hr ⊢
    simp only [Simulation.calcReflTransFilm, withGonio, hro]
    rfl
  · have hrun : runFilm nev a S (withGonio d none) = Simulation.calcReflTransFilm nev (withGonio d none) t := by
      simp only [runFilm, ht, bind, Except.bind]
    rw [hrun]
    have : Simulation.calcReflTransFilm nev (withGonio d none) t = Weights.calcReflTransFilm (nev := nev) d.optics d.thickness d.z_low
        (fun i j => (t.position i j).z) (fun i j => (t.direction i j).z) (fun i j => t.weight i j) t.kz0_rot t.kz0_refl false id := rfl
    rw [this, film_call_eq _ _ _ _ _ _ _ _ _ _ hr]
    rfl

/-- C138.  A goniometer that counts a subset of the photons counted by another one reads at most as much: reflectance,
transmittance, and the contribution of every photon to either (in the same simulation, whose result for the larger set is not
NaN). -/
theorem C138_fewer_photons_read_less {a : Args nt} {S : Sampling nt num} {d : DetArgs} (H : FilmRun a S d) (nev : ℕ)
    {G G' : ℝ × ℝ × ℝ} (hsub : ∀ j, CountedBy nev a S d G j → CountedBy nev a S d G' j) :
    ∃ r r', runFilm nev a S (withGonio d (some G)) = .ok r ∧ runFilm nev a S (withGonio d (some G')) = .ok r' ∧
      ((r'.R = nan ∧ r'.T = nan) ∨ ReadsAtMost r r') := by
  obtain ⟨t, ht, hok, hg, -⟩ := run_gonio H nev
  obtain ⟨f, hf, e⟩ := gonio_filter nev d t G
  obtain ⟨f', hf', e'⟩ := gonio_filter nev d t G'
  rw [hg, hg, e, e']
  refine compare (hok f hf) (hok f' hf') true fun j => ?_
  by_cases h : (Weights.filmGeometry (nev := nev) d.optics d.thickness d.z_low (fun i j => (t.position i j).z)
    (fun i j => (t.direction i j).z) t.kz0_rot f).ri j = 0
  · exact Or.inl h
  right
  obtain ⟨t', ht', h'⟩ := hsub j ⟨t, ht, by rw [e]; exact h⟩
  rw [ht] at ht'
  obtain rfl := Except.ok.inj ht'
  rw [e'] at h'
  exact ((hf _ j).resolve_right h).trans ((hf' _ j).resolve_right h').symm

/-- C138.  A goniometer never reads more than the integrating sphere: with `detector=True` reflectance, transmittance and every
photon's contribution are at most what the same call without the detector returns. -/
theorem C138_reads_less_than_all {a : Args nt} {S : Sampling nt num} {d : DetArgs} (H : FilmRun a S d) (nev : ℕ)
    (G : ℝ × ℝ × ℝ) :
    ∃ r r', runFilm nev a S (withGonio d (some G)) = .ok r ∧ runFilm nev a S (withGonio d none) = .ok r' ∧
      ((r'.R = nan ∧ r'.T = nan) ∨ ReadsAtMost r r') := by
  obtain ⟨t, ht, hok, hg, hn⟩ := run_gonio H nev
  obtain ⟨f, hf, e⟩ := gonio_filter nev d t G
  rw [hg, hn, e]
  exact compare (hok f hf) (hok id fun _ _ => Or.inl rfl) false fun j => (hf _ j).symm

/-- C138.  A goniometer that counts no photon reads zero. -/
theorem C138_no_photon_no_reading {a : Args nt} {S : Sampling nt num} {d : DetArgs} (H : FilmRun a S d) (nev : ℕ)
    {G : ℝ × ℝ × ℝ} (hno : ∀ j, ¬ CountedBy nev a S d G j) :
    ∃ r, runFilm nev a S (withGonio d (some G)) = .ok r ∧
      ((r.R = nan ∧ r.T = nan) ∨ (r.R = fin 0 ∧ ∀ j, r.reflPer j = fin 0)) := by
  obtain ⟨t, ht, hok, hg, -⟩ := run_gonio H nev
  obtain ⟨f, hf, e⟩ := gonio_filter nev d t G
  rw [hg, e]
  have H0 := hok f hf
  have hri : ∀ j, (Weights.filmGeometry (nev := nev) d.optics d.thickness d.z_low (fun i j => (t.position i j).z)
      (fun i j => (t.direction i j).z) t.kz0_rot f).ri j = 0 := fun j => by
    by_contra h
    exact hno j ⟨t, ht, by rw [e]; exact h⟩
  rcases film_cases d.thickness d.z_low (fun (i : Fin (nev + 2)) j => (t.position i j).z) t.kz0_refl H0 true with
    ⟨-, r, hr, h1, h2⟩ | ⟨i, hi01, hi, hgood, ⟨-, r, hr, h1, h2⟩ | ⟨hk, r, hr, hR, -, hRp, -⟩⟩
  · exact ⟨r, hr, Or.inl ⟨h1, h2⟩⟩
  · exact ⟨r, hr, Or.inl ⟨h1, h2⟩⟩
  refine ⟨r, hr, Or.inr ?_⟩
  have h0 : ∀ j, (filmShadow (nev := nev) d.optics d.thickness d.z_low (fun i j => (t.position i j).z)
      (fun i j => (t.direction i j).z) (fun i j => t.weight i j) t.kz0_rot f i).r j = 0 := fun j => by
    show i j * sel _ _ j = 0
    rw [show sel (fun (i : Fin (nev + 1)) j => t.weight i j) _ j = 0 from by
      unfold sel; rw [dif_neg (by rw [hri j]; omega)], mul_zero]
  have hz : ∀ j, (filmShadow (nev := nev) d.optics d.thickness d.z_low (fun i j => (t.position i j).z)
      (fun i j => (t.direction i j).z) (fun i j => t.weight i j) t.kz0_rot f i).dr d.optics.n_sample d.optics.n_medium
        d.optics.detection_angle j + (filmShadow (nev := nev) d.optics d.thickness d.z_low (fun i j => (t.position i j).z)
      (fun i j => (t.direction i j).z) (fun i j => t.weight i j) t.kz0_rot f i).er true j *
        (filmShadow (nev := nev) d.optics d.thickness d.z_low (fun i j => (t.position i j).z)
      (fun i j => (t.direction i j).z) (fun i j => t.weight i j) t.kz0_rot f i).rdf d.optics.n_sample d.optics.n_medium
        d.optics.detection_angle = 0 := fun j => by
    have p0 : ∀ (c : RIn nt), c.r j = 0 → c.Pr j = 0 := fun c h => by simp only [RIn.Pr, h, zero_mul]
    have q0 : ∀ (c : RIn nt), c.r j = 0 → c.er true j = 0 := fun c h => by
      simp only [RIn.er, if_true, RIn.fr, p0 c h, h, sub_zero, zero_mul]
    have d0 : ∀ (c : RIn nt) (ns nm th : ℝ), c.r j = 0 → c.dr ns nm th j = 0 := fun c ns nm th h => by
      unfold RIn.dr dcR; rw [p0 c h, ite_self]
    rw [q0 _ (h0 j), d0 _ _ _ _ (h0 j), zero_mul, add_zero]
  have hj : ∀ j, r.reflPer j = fin 0 := fun j => by
    rw [hRp j]
    congr 1
    simp only [if_true, add_zero]
    rw [hz j, zero_div]
  refine ⟨?_, hj⟩
  rw [hR]
  congr 1
  refine Finset.sum_eq_zero fun j _ => ?_
  simp only [if_true, add_zero]
  rw [hz j, zero_div]

private theorem point_counts_nothing {nev : ℕ} (indices : Fin nt → ℕ) (px py pz : Fin (nev + 1) → Fin nt → ℝ)
    (kx ky kz : Fin nev → Fin nt → ℝ) (θ D ns nm : ℝ) (j : Fin nt) :
    calcIndicesDetected indices px py pz kx ky kz θ 0 D ns nm j = 0 := by
  unfold calcIndicesDetected
  dsimp only
  rw [if_neg]
  unfold insideDetector
  dsimp only
  generalize (hemispherePoint _ _ _ _ _).y = y
  rintro ⟨-, ⟨h1, h2⟩, -⟩
  cases y with
  | fin y => rw [fin_lt] at h1 h2; linarith
  | pinf => exact absurd h1 (by simp)
  | ninf => exact h2
  | nan => exact absurd h1 (by simp)

/-- C138.  A detector of no extent counts no photon. -/
theorem C138_point_detector {a : Args nt} {S : Sampling nt num} {d : DetArgs} (H : FilmRun a S d) (nev : ℕ) (θ D : ℝ) :
    ∃ r, runFilm nev a S (withGonio d (some (θ, 0, D))) = .ok r ∧
      ((r.R = nan ∧ r.T = nan) ∨ (r.R = fin 0 ∧ ∀ j, r.reflPer j = fin 0)) := by
  refine C138_no_photon_no_reading H nev fun j => ?_
  rintro ⟨t, ht, h⟩
  simp only [gonioGeometry, point_counts_nothing, ne_eq, not_true_eq_false] at h

/-! ### the transmittance depends on the goniometer -/

/-- Two photons in a film of thickness 1 and index 2 in air, both entering along the normal: one turns back half way and leaves
through the illuminated face, the other one goes straight through. -/
def turnAndThrough : Trajs 2 where
  position := fun i j => ⟨0, 0, if i = 0 then 0 else if i = 1 then 1 / 2 else if j = 0 then -1 / 2 else 3 / 2⟩
  direction := fun i j => ⟨0, 0, if i = 0 then 1 else if j = 0 then -1 else 1⟩
  weight := fun _ _ => 1
  kz0_rot := none
  kz0_refl := none

/-- the arguments of the call -/
def turnDet : DetArgs :=
  { n_medium := 1, n_sample := 2, thickness := 1, z_low := 0, n_front := none, n_back := none,
    detection_angle := Real.pi / 2, fine_roughness := 0, n_particle := none, n_matrix := none, gonio := none }

private theorem plate_normal {a b : ℝ} (ha : 0 < a) (hb : 0 < b) :
    platePass a none b 0 = (1 - ((a - b) / (a + b)) ^ 2) / (1 + 1 / 10 ^ 9) := by
  have hpi : (0 : ℝ) ≠ Real.pi / 2 := by positivity
  unfold platePass fresnelR
  simp only [Option.getD_none, Real.sin_zero, mul_zero, zero_div, Real.arcsin_zero, Real.cos_zero, mul_one, sub_self, zero_pow,
    ne_eq, OfNat.ofNat_ne_zero, not_false_eq_true, add_zero, zero_mul, sub_zero]
  rw [if_neg (by rintro (h | h | h) <;> [linarith; linarith; exact hpi h])]
  ring

private theorem two_ok (f : (Fin 2 → ℕ) → Fin 2 → ℕ) (hf : ∀ g j, f g j = g j ∨ f g j = 0) :
    FilmOK (nev := 1) turnDet.optics (fun i j => (turnAndThrough.direction i j).z) (fun i j => turnAndThrough.weight i j) none f where
  nt_pos := by norm_num
  medium := by norm_num [turnDet, DetArgs.optics]
  tir := by norm_num [turnDet, DetArgs.optics, Weights.nTir]
  front := by simp [turnDet, DetArgs.optics]
  back := by simp [turnDet, DetArgs.optics]
  kz1 := fun e j => by simp only [turnAndThrough]; split <;> [norm_num; (split <;> norm_num)]
  w01 := fun e j => by simp [turnAndThrough]
  rot1 := fun k hk => (nomatch hk)
  filt := hf

private def turnFate (j : Fin 2) : Fate 2 := if j = 0 then .reflected 1 else .transmitted 1

private theorem two_fate (j : Fin 2) : IsFate turnDet.optics.n_tir turnDet.optics.n_medium 0 1
    (fun e : Fin 3 => (turnAndThrough.position e j).z) (fun e : Fin 2 => (turnAndThrough.direction e j).z) (turnFate j) := by
  have h0 : ∀ f, ¬ LeavesThrough turnDet.optics.n_tir turnDet.optics.n_medium 0 1 f
      (fun e : Fin 3 => (turnAndThrough.position e j).z) (fun e : Fin 2 => (turnAndThrough.direction e j).z) 0 := by
    rintro f ⟨-, b, hb, -⟩
    simp [turnAndThrough] at hb
    rcases hb with ⟨h1, h2, -⟩ | ⟨h1, h2, -⟩
    · have : (1 : ℝ) ≤ b := by exact_mod_cast h1
      linarith
    · have : (b : ℝ) ≤ 0 := by exact_mod_cast h2
      linarith
  have hlt : ∀ e' : Fin 2, e' < 1 → e' = 0 := by decide
  have htir : turnDet.optics.n_tir = 2 := by norm_num [turnDet, DetArgs.optics, Weights.nTir]
  have hmed : turnDet.optics.n_medium = 1 := rfl
  fin_cases j
  · refine ⟨⟨by rw [htir, hmed]; norm_num [turnAndThrough], 0, Or.inr ⟨by norm_num [turnAndThrough], by norm_num [turnAndThrough], ?_⟩, ?_⟩, ?_⟩
    · intro c hc
      norm_num [turnAndThrough] at hc
      have : (c : ℝ) < 1 := by linarith
      have : c < 1 := by exact_mod_cast this
      omega
    · simp [fold]
    · intro e' he'
      rw [hlt e' he']
      exact ⟨h0 _, h0 _⟩
  · refine ⟨⟨by rw [htir, hmed]; norm_num [turnAndThrough], 1, Or.inl ⟨by norm_num [turnAndThrough], by norm_num [turnAndThrough], ?_⟩, ?_⟩, ?_⟩
    · intro c hc
      norm_num [turnAndThrough] at hc
      have : (0 : ℝ) < c := by linarith
      have : 0 < c := by exact_mod_cast this
      omega
    · have : round ((1 : ℝ) / 2) = 1 := by
        rw [round_eq]; norm_num
      simp only [fold, Int.cast_one, this]; norm_num
    · intro e' he'
      rw [hlt e' he']
      exact ⟨h0 _, h0 _⟩

private theorem vertical_not_counted {nev nt : ℕ} (indices : Fin nt → ℕ) (pz : Fin (nev + 1) → Fin nt → ℝ)
    (kz : Fin nev → Fin nt → ℝ) (hk : ∀ e j, |kz e j| = 1) {θ L D ns nm : ℝ} (hs : 0 < ns) (hm : 0 < nm)
    (hθ : θ < Real.pi / 2) (hD : 0 < D) (j : Fin nt) (hj : indices j ≤ nev) :
    calcIndicesDetected indices (fun _ _ => 0) (fun _ _ => 0) pz (fun _ _ => 0) (fun _ _ => 0) kz θ L D ns nm j = 0 := by
  rcases Nat.eq_zero_or_pos (indices j) with h0 | h0
  · unfold calcIndicesDetected
    dsimp only
    split
    · exact h0
    · rfl
  have hz : |sel kz indices j| = 1 := by
    unfold sel
    rw [dif_pos ⟨h0, by omega⟩]
    exact hk _ _
  have e1 : sel (fun (_ : Fin nev) (_ : Fin nt) => (0 : ℝ)) indices j = 0 := by unfold sel; split <;> rfl
  have hsq : sel kz indices j * sel kz indices j = 1 := by rw [← abs_mul_abs_self, hz, one_mul]
  have hz0 : sel kz indices j ≠ 0 := fun h => by rw [h] at hsq; norm_num at hsq
  obtain ⟨h1, h2⟩ := C26_detected_iff indices (fun _ _ => 0) (fun _ _ => 0) pz (fun _ _ => 0) (fun _ _ => 0) kz (θ := θ) (L := L)
    (D := D) hs hm hθ j h0 (by simp only [evRow, V3.normSq, V3.dot, e1]; linarith) hz0
  rcases h1 with h1 | h1
  · exact h1
  have := (h2 _ _ rfl rfl V3.zero rfl ⟨-(sel (fun e => pz e.succ) indices j) / sel kz indices j, by
    ext
    · simp only [evRow, V3.zero, V3.add, V3.smul, e1]; ring
    · simp only [evRow, V3.zero, V3.add, V3.smul, e1]; ring
    · simp only [evRow, V3.zero, V3.add, V3.smul]; field_simp; ring⟩
    (by simp only [V3.normSq, V3.dot, V3.zero, mul_zero, add_zero]; positivity)).mp h1
  obtain ⟨h | h, -⟩ := this
  · exact absurd e1 h
  · exact absurd e1 h

/-- photons on the z axis are not counted by any goniometer -/
private theorem axis_not_counted {nt nev : ℕ} {d : DetArgs} {t : Trajs nt} (hx : ∀ i j, (t.position i j).x = 0)
    (hy : ∀ i j, (t.position i j).y = 0) (hkx : ∀ i j, (t.direction i j).x = 0) (hky : ∀ i j, (t.direction i j).y = 0)
    (hk : ∀ i j, |(t.direction i j).z| = 1) {θ L D : ℝ} (hs : 0 < d.n_sample) (hm : 0 < d.n_medium) (hθ : θ < Real.pi / 2)
    (hD : 0 < D) (j : Fin nt) : (gonioGeometry nev d t θ L D).ri j = 0 := by
  simp only [gonioGeometry, hx, hy, hkx, hky]
  exact vertical_not_counted _ _ _ (fun e j => (tir_abs _ _ _).trans (hk _ _)) hs hm hθ hD j (Exits.reflIndices_le _ _ _)

/-- a goniometer that counts nothing, as a filter -/
private theorem gonio_none {nt nev : ℕ} {d : DetArgs} {t : Trajs nt} {θ L D : ℝ}
    (h : ∀ j, (gonioGeometry nev d t θ L D).ri j = 0) :
    gonioGeometry nev d t θ L D = Weights.filmGeometry (nev := nev) d.optics d.thickness d.z_low
        (fun i j => (t.position i j).z) (fun i j => (t.direction i j).z) t.kz0_rot (fun _ _ => 0) := by
  obtain ⟨f, hf, e⟩ := gonio_filter nev d t (θ, L, D)
  dsimp only at e
  rw [e] at h ⊢
  have h' : (Weights.filmGeometry (nev := nev) d.optics d.thickness d.z_low
        (fun i j => (t.position i j).z) (fun i j => (t.direction i j).z) t.kz0_rot f).ri = fun _ => 0 := funext h
  have key : ∀ ri ri' : Fin nt → ℕ, ri = ri' → ∀ ti si thInc thIncDet thTrans (k : Fin (nev + 1) → Fin nt → ℝ),
      (⟨ri, ti, si, thInc, thIncDet, Weights.getAnglesFilm k ri, thTrans⟩ : Weights.Geometry nt) =
        ⟨ri', ti, si, thInc, thIncDet, Weights.getAnglesFilm k ri', thTrans⟩ := by
    rintro ri ri' rfl _ _ _ _ _ _; rfl
  exact key _ _ h' _ _ _ _ _ _

/-- C138, refuted: the transmittance depends on the goniometer, which is on the other side of the film.  Two photons enter along
the normal, one is reflected and the other transmitted; no goniometer counts the reflected photon (see C26), and the light
returned by the faces of the film is then no longer distributed to the transmittance. -/
theorem C138_transmittance_refuted {θ L D : ℝ} (hθ : θ < Real.pi / 2) (hD : 0 < D) :
    ∃ r r' T T', Simulation.calcReflTransFilm 1 (withGonio turnDet (some (θ, L, D))) turnAndThrough = .ok r ∧
      Simulation.calcReflTransFilm 1 (withGonio turnDet none) turnAndThrough = .ok r' ∧ r.T = fin T ∧ r'.T = fin T' ∧
      T < T' := by
  set kz : Fin 2 → Fin 2 → ℝ := fun i j => (turnAndThrough.direction i j).z with hkz
  set z : Fin 3 → Fin 2 → ℝ := fun i j => (turnAndThrough.position i j).z with hzz
  have H := two_ok id fun _ _ => Or.inl rfl
  have H0 := two_ok (fun _ _ => 0) fun _ _ => Or.inr rfl
  have htir : turnDet.optics.n_tir = 2 := by norm_num [turnDet, DetArgs.optics, Weights.nTir]
  have hle : turnDet.optics.n_medium ≤ turnDet.optics.n_tir := by rw [htir]; norm_num [turnDet, DetArgs.optics]
  have hns : 0 < turnDet.optics.n_sample := by norm_num [turnDet, DetArgs.optics]
  have hsn : ∀ j, Snell turnDet.optics.n_medium turnDet.optics.n_tir ((fun _ => 0 : Fin 2 → ℝ) j) (Real.arccos |kz 0 j|) := fun j => by
    simp [Snell, hkz, turnAndThrough]
  have hth : ∀ j, 0 ≤ (fun _ => 0 : Fin 2 → ℝ) j ∧ (fun _ => 0 : Fin 2 → ℝ) j ≤ Real.pi / 2 := fun j => ⟨le_rfl, by positivity⟩
  -- with the goniometer
  have hgeo : gonioGeometry 1 turnDet turnAndThrough θ L D =
      Weights.filmGeometry (nev := 1) turnDet.optics turnDet.thickness turnDet.z_low z kz none (fun _ _ => 0) :=
    gonio_none (axis_not_counted (fun _ _ => rfl) (fun _ _ => rfl) (fun _ _ => rfl) (fun _ _ => rfl)
      (fun i j => by simp only [turnAndThrough]; split <;> [norm_num; (split <;> norm_num)]) hns (by norm_num [turnDet]) hθ hD)
  obtain ⟨r, hr, hc⟩ := C101_goniometer_estimator z H0 (kept := fun _ => False) (fun f j => by simp) hns hle
    (show (0 : ℝ) < 1 from one_pos) two_fate hth hsn
  obtain ⟨r', hr', hc'⟩ := C101_film_estimator z (fun _ _ => 0) H hns hle (show (0 : ℝ) < 1 from one_pos) two_fate hth hsn
  set q : ℝ := (1 - ((1 - 2) / (1 + 2)) ^ 2) / (1 + 1 / 10 ^ 9) with hq
  have hq0 : 0 < q := by rw [hq]; norm_num
  have hq1 : q < 1 := by rw [hq]; norm_num
  have hin : platePass 1 none 2 0 = q := plate_normal one_pos two_pos
  have hout : platePass 2 none 1 0 = q := by rw [plate_normal two_pos one_pos, hq]; norm_num
  have hseen : SeenWithin 2 1 (Real.pi / 2) 0 :=
    ⟨0, ⟨by linarith [Real.pi_pos], by positivity⟩, by simp [Snell], by positivity⟩
  have ho : turnDet.optics.medium = ⟨1, 2, 2, none, none, Real.pi / 2⟩ := by
    simp [Weights.Optics.medium, turnDet, DetArgs.optics, Weights.nTir]
  have hw : ∀ e j, turnAndThrough.weight e j = 1 := fun _ _ => rfl
  -- without
  set p' := filmPhotons turnDet.optics.medium kz (fun (i : Fin 2) j => turnAndThrough.weight i j) (fun j => (turnFate j).reflEvent)
    (fun j => (turnFate j).transEvent) (fun j => (turnFate j).lastEvent) (fun _ => 0)
    (fun j => Real.arccos |kz 0 j| ≤ turnDet.optics.detection_angle) with hp'
  set p := filmPhotons turnDet.optics.medium kz (fun (i : Fin 2) j => turnAndThrough.weight i j)
    (fun _ => none) (fun j => (turnFate j).transEvent) (fun j => (turnFate j).lastEvent) (fun _ => 0) (fun _ => False) with hp
  have a0 : (p' 0).outR = q ∧ (p' 0).outT = 0 ∧ (p' 0).trapped = 0 ∧ (p' 0).escR = q ∧ (p' 0).enter = q := by
    refine ⟨?_, ?_, ?_, ?_, ?_⟩ <;>
      simp [hp', filmPhotons, turnFate, Fate.reflEvent, Fate.transEvent, Fate.lastEvent, valueAt, ho, hin, hout, hw, hkz, turnAndThrough]
  have a1 : (p' 1).outR = 0 ∧ (p' 1).outT = q ∧ (p' 1).trapped = 0 ∧ (p' 1).escT = q ∧ (p' 1).enter = q ∧ (p' 1).seenT := by
    refine ⟨?_, ?_, ?_, ?_, ?_, ?_⟩ <;>
      simp [hp', filmPhotons, turnFate, Fate.reflEvent, Fate.transEvent, Fate.lastEvent, valueAt, ho, hin, hout, hw, hkz, turnAndThrough,
        hseen]
  have b0 : (p 0).outR = 0 ∧ (p 0).outT = 0 ∧ (p 0).trapped = 0 ∧ (p 0).enter = q := by
    refine ⟨?_, ?_, ?_, ?_⟩ <;>
      simp [hp, filmPhotons, turnFate, Fate.reflEvent, Fate.transEvent, Fate.lastEvent, valueAt, ho, hin, hout, hw, hkz, turnAndThrough]
  have b1 : (p 1).outR = 0 ∧ (p 1).outT = q ∧ (p 1).trapped = 0 ∧ (p 1).escT = q ∧ (p 1).enter = q ∧ (p 1).seenT := by
    refine ⟨?_, ?_, ?_, ?_, ?_, ?_⟩ <;>
      simp [hp, filmPhotons, turnFate, Fate.reflEvent, Fate.transEvent, Fate.lastEvent, valueAt, ho, hin, hout, hw, hkz, turnAndThrough,
        hseen]
  obtain ⟨a01, a02, a03, a04, a05⟩ := a0
  obtain ⟨a11, a12, a13, a14, a15, a16⟩ := a1
  obtain ⟨b01, b02, b03, b05⟩ := b0
  obtain ⟨b11, b12, b13, b14, b15, b16⟩ := b1
  have kp' : Photon.escapedR p' = q * q ∧ Photon.escapedT p' = q * q ∧ Photon.known p' = q * q + q * q := by
    refine ⟨?_, ?_, ?_⟩ <;>
      simp [Photon.known, Photon.absorbed, Photon.escapedR, Photon.escapedT, Fin.sum_univ_two, a01, a02, a03, a04, a05, a11, a12, a13,
        a14, a15]
  have kp : Photon.escapedR p = 0 ∧ Photon.escapedT p = q * q ∧ Photon.known p = q + q * q := by
    refine ⟨?_, ?_, ?_⟩ <;>
      simp [Photon.known, Photon.absorbed, Photon.escapedR, Photon.escapedT, Fin.sum_univ_two, b01, b02, b03, b05, b11, b12, b13,
        b14, b15]
  have hqq : 0 < q * q := mul_pos hq0 hq0
  have hmax : max (q * q) ((10 : ℝ) ^ 9)⁻¹ ≠ 0 := (lt_max_of_lt_left hqq).ne'
  have sT' : Photon.shareT p' = 1 := by
    simp [Photon.shareT, kp'.2.1, Fin.sum_univ_two, a02, a12, a14, a16]
    exact hmax
  have sT : Photon.shareT p = 1 := by
    simp [Photon.shareT, kp.2.1, Fin.sum_univ_two, b02, b12, b14, b16]
    exact hmax
  have T' : ∑ j, Photon.trans p' j = q / 2 := by
    simp [Photon.trans, Fin.sum_univ_two, sT', kp'.1, kp'.2.1, kp'.2.2, a01, a02, a03, a04, a11, a12, a13, a14, a16]
    field_simp
    ring
  have T : ∑ j, Photon.trans p j = q * q / 2 := by
    simp [Photon.trans, Fin.sum_univ_two, sT, kp.1, kp.2.1, kp.2.2, b01, b02, b03, b11, b12, b13, b14, b16]
  refine ⟨r, r', q * q / 2, q / 2, ?_, hr', ?_, ?_, ?_⟩
  · rw [← hr]
    rw [film_call_eq _ _ _ _ _ _ _ _ _ _ rfl]
    show Weights.calcReflTrans turnDet.optics .film (gonioGeometry 1 turnDet turnAndThrough θ L D) none true _ = _
    rw [hgeo]
    rfl
  · rcases hc with ⟨h, -⟩ | ⟨-, -, -, -, h⟩
    · simp only [if_false] at h
      exact absurd (kp.2.2.symm.trans h) (by positivity)
    · simp only [if_false] at h
      exact h.trans (congrArg fin T)
  · rcases hc' with ⟨h, -⟩ | ⟨-, -, -, -, h⟩
    · exact absurd (kp'.2.2.symm.trans h) (by positivity)
    · exact h.trans (congrArg fin T')
  · have := mul_lt_mul_of_pos_left hq1 hq0
    linarith

/-- The hypotheses of C138 hold for the sample run and for every goniometer: compare one of size zero with any other. -/
example (mu θ θ' L D D' : ℝ) (hmu : 0 ≤ mu) (nev : ℕ) :
    ∃ r r', runFilm nev demoArgs (demoSampling mu) (withGonio (demoDet none) (some (θ, 0, D))) = .ok r ∧
      runFilm nev demoArgs (demoSampling mu) (withGonio (demoDet none) (some (θ', L, D'))) = .ok r' ∧
      ((r'.R = nan ∧ r'.T = nan) ∨ ReadsAtMost r r') :=
  C138_fewer_photons_read_less (demo_filmRun mu hmu none) nev fun j => by
    rintro ⟨t, ht, h⟩
    simp only [gonioGeometry, point_counts_nothing, ne_eq, not_true_eq_false] at h

end
end Verif.Props
