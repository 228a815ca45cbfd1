import Verif.SpecFilm
import Verif.Props.Exits
import Verif.Props.Fresnel2
import Verif.Props.Weights
import Mathlib.Analysis.SpecialFunctions.Trigonometric.Bounds

/-!
# C101: `calc_refl_trans` computes the documented estimator
-/

namespace Verif.Props
open Classical Verif.Spec Verif.Root Verif.Fresnel Verif.Exits Verif.Weights XF
noncomputable section

theorem platePass_eq {nb na θ : ℝ} (ni? : Option ℝ) (hb : 0 < nb) (ha : 0 < na) (hi : ∀ x, ni? = some x → 0 < x)
    (h0 : 0 ≤ θ) (h1 : θ ≤ Real.pi / 2) : passFrac nb ni? na θ = platePass nb ni? na θ := by
  obtain ⟨p, hp, hspec⟩ := C08_pass_frac_textbook (n := 1) (fun _ => θ) (na := na) ni? hb ha hi (fun _ => ⟨h0, h1⟩)
  have e := fresnelPassFrac_fin (n := 1) (na := na) (fun _ => θ) ni? hb hi (fun _ => ⟨h0, h1⟩)
  rw [e] at hp
  have hp0 : passFrac nb ni? na θ = p 0 := by
    injection hp with hp
    have := congrFun hp 0
    simpa using this
  have hni : 0 < ni?.getD nb := by
    cases ni? with
    | none => simpa using hb
    | some x => simpa using hi x rfl
  obtain ⟨hz, hv⟩ := hspec 0
  rw [hp0]
  unfold platePass
  simp only
  by_cases hc : ni?.getD nb ≤ nb * Real.sin θ ∨ na ≤ nb * Real.sin θ ∨ θ = Real.pi / 2
  · rw [if_pos hc]; exact hz.mpr hc
  · rw [if_neg hc]
    push Not at hc
    have hs : 0 ≤ Real.sin θ := Real.sin_nonneg_of_nonneg_of_le_pi h0 (by linarith [Real.pi_pos])
    have hq : 0 ≤ nb * Real.sin θ := mul_nonneg hb.le hs
    have key : ∀ n, 0 < n → nb * Real.sin θ < n →
        IsRefractionAngle (Real.arcsin (nb * Real.sin θ / n)) ∧ Snell nb n θ (Real.arcsin (nb * Real.sin θ / n)) := by
      intro n hn hlt
      refine ⟨⟨Real.neg_pi_div_two_le_arcsin _, Real.arcsin_le_pi_div_two _⟩, ?_⟩
      unfold Snell
      rw [Real.sin_arcsin]
      · field_simp
      · have := div_nonneg hq hn.le; linarith
      · rw [div_le_one hn]; exact hlt.le
    exact hv _ _ hc.1 hc.2.1 (lt_of_le_of_ne h1 hc.2.2) (key _ hni hc.1).1 (key _ ha hc.2.1).1
      (key _ hni hc.1).2 (key _ ha hc.2.1).2

theorem seen_dcR {ns nm th θ w : ℝ} (hm : 0 < nm) (hs : 0 < ns) (h0 : 0 ≤ θ) (h1 : θ ≤ Real.pi / 2) :
    dcR ns nm th θ w = if SeenWithin ns nm th θ then w else 0 := by
  have hsin : 0 ≤ Real.sin θ := Real.sin_nonneg_of_nonneg_of_le_pi h0 (by linarith [Real.pi_pos])
  have hq : 0 ≤ ns / nm * Real.sin θ := mul_nonneg (div_nonneg hs.le hm.le) hsin
  unfold dcR
  have : (|ns / nm * Real.sin θ| ≤ 1 ∧ Real.arcsin (ns / nm * Real.sin θ) ≤ th) ↔ SeenWithin ns nm th θ := by
    unfold SeenWithin Snell
    rw [abs_of_nonneg hq]
    constructor
    · rintro ⟨ha, hb⟩
      refine ⟨_, ⟨Real.neg_pi_div_two_le_arcsin _, Real.arcsin_le_pi_div_two _⟩, ?_, hb⟩
      rw [Real.sin_arcsin (by linarith) ha]; field_simp
    · rintro ⟨φ, ⟨hp1, hp2⟩, hsn, hle⟩
      have e : ns / nm * Real.sin θ = Real.sin φ := by field_simp; linarith
      rw [e, Real.arcsin_sin hp1 hp2]
      exact ⟨Real.sin_le_one _, hle⟩
  simp only [this]

/-! ### fates and event numbers -/

/-- event numbers of a fate -/
def Numbers {nev : ℕ} (f : Fate nev) (r t s : ℕ) : Prop := match f with
  | .reflected e => r = e + 1 ∧ t = 0 ∧ s = 0
  | .transmitted e => r = 0 ∧ t = e + 1 ∧ s = 0
  | .trapped => r = 0 ∧ t = 0 ∧ s = nev

theorem numbers_of_fate {nev nt : ℕ} {n nm th zl : ℝ} (hs : 0 < n) (hm : 0 < nm) (hle : nm ≤ n) (hth : zl < th)
    (z : Fin (nev + 2) → Fin nt → ℝ) (kz : Fin (nev + 1) → Fin nt → ℝ) (hk : ∀ e j, |kz e j| ≤ 1) (j : Fin nt)
    (f : Fate (nev + 1)) (hf : IsFate n nm zl th (fun e => z e j) (fun e => kz e j) f) :
    let X := findValidExitsFilm n nm th zl z kz
    let I := findEventIndices X.neg X.pos X.tir
    Numbers f (I.1 j) (I.2.1 j) (I.2.2.1 j) := by
  intro X I
  have hL : ∀ e, (LeavesThrough n nm zl th th (fun e => z e j) (fun e => kz e j) e ↔ X.pos e j = true) ∧
      (LeavesThrough n nm zl th zl (fun e => z e j) (fun e => kz e j) e ↔ X.neg e j = true) := by
    intro e
    have h := C11_film_exit_face hs hm hle hth z kz hk e j
    exact ⟨h.1.symm, h.2.1.symm⟩
  have h9 := C09_exactly_one_outcome X.neg X.pos X.tir j
  have h10 := C10_first_exit (by omega) X.neg X.pos X.tir j
  simp only at h9 h10
  obtain ⟨hr, ht, hst, -, -⟩ := h10
  have flagN : ∀ m, flagged X.neg j m ↔ ∃ e : Fin (nev + 1), e.val + 1 = m ∧
      LeavesThrough n nm zl th zl (fun e => z e j) (fun e => kz e j) e := by
    intro m; unfold flagged; simp only [(hL _).2]
  have flagP : ∀ m, flagged X.pos j m ↔ ∃ e : Fin (nev + 1), e.val + 1 = m ∧
      LeavesThrough n nm zl th th (fun e => z e j) (fun e => kz e j) e := by
    intro m; unfold flagged; simp only [(hL _).1]
  have excl : ∀ e, ¬ (X.pos e j = true ∧ X.neg e j = true) := fun e =>
    (C12_film_flags_exclusive n nm th zl z kz e j).1
  cases f with
  | reflected e =>
    obtain ⟨h1, h2⟩ := hf
    have e1 : I.1 j = e + 1 := by
      refine (hr _ (by omega)).mpr ⟨⟨by omega, by omega, (flagN _).mpr ⟨e, rfl, h1⟩, ?_⟩, ?_⟩
      · intro k hk1 hk2 hfl
        obtain ⟨e', he', hl⟩ := (flagN _).mp hfl
        exact (h2 e' (by rw [Fin.lt_def]; omega)).1 hl
      · intro k hk1 hfl
        obtain ⟨e', he', hl⟩ := (flagP _).mp hfl
        by_cases hlt : e' < e
        · exact (h2 e' hlt).2 hl
        · have : e' = e := by rw [Fin.lt_def] at hlt; ext; omega
          subst this
          exact excl _ ⟨(hL _).1.mp hl, (hL _).2.mp h1⟩
    show I.1 j = e + 1 ∧ I.2.1 j = 0 ∧ I.2.2.1 j = 0
    rcases h9 with h | h | h
    · exact ⟨e1, h.2⟩
    · exact absurd h.1 (by show I.1 j ≠ 0; omega)
    · exact absurd h.1 (by show I.1 j ≠ 0; omega)
  | transmitted e =>
    obtain ⟨h1, h2⟩ := hf
    have e1 : I.2.1 j = e + 1 := by
      refine (ht _ (by omega)).mpr ⟨⟨by omega, by omega, (flagP _).mpr ⟨e, rfl, h1⟩, ?_⟩, ?_⟩
      · intro k hk1 hk2 hfl
        obtain ⟨e', he', hl⟩ := (flagP _).mp hfl
        exact (h2 e' (by rw [Fin.lt_def]; omega)).2 hl
      · intro k hk1 hfl
        obtain ⟨e', he', hl⟩ := (flagN _).mp hfl
        exact (h2 e' (by rw [Fin.lt_def]; omega)).1 hl
    show I.1 j = 0 ∧ I.2.1 j = e + 1 ∧ I.2.2.1 j = 0
    rcases h9 with h | h | h
    · exact absurd h.2.1 (by show I.2.1 j ≠ 0; omega)
    · exact ⟨h.1, e1, h.2.2⟩
    · exact absurd h.2.1 (by show I.2.1 j ≠ 0; omega)
  | trapped =>
    have e1 : I.2.2.1 j ≠ 0 := by
      refine hst.mpr fun m => ⟨fun hfl => ?_, fun hfl => ?_⟩
      · obtain ⟨e', he', hl⟩ := (flagN _).mp hfl
        exact (hf e').1 hl
      · obtain ⟨e', he', hl⟩ := (flagP _).mp hfl
        exact (hf e').2 hl
    show I.1 j = 0 ∧ I.2.1 j = 0 ∧ I.2.2.1 j = nev + 1
    rcases h9 with h | h | h
    · exact absurd h.2.2 e1
    · exact absurd h.2.2 e1
    · exact h

/-- Every photon has exactly one fate. -/
theorem fate_exists_unique {nev : ℕ} (n nm : ℝ) {th zl : ℝ} (hth : zl < th) (z : Fin (nev + 1) → ℝ) (kz : Fin nev → ℝ) :
    ∃! f, IsFate n nm zl th z kz f := by
  have hne : ∀ e, ¬ (LeavesThrough n nm zl th zl z kz e ∧ LeavesThrough n nm zl th th z kz e) := by
    rintro e ⟨⟨-, b, hb, h1⟩, ⟨-, c, hc, h2⟩⟩
    have hbc : b = c := by
      rcases hb with ⟨a1, a2, a3⟩ | ⟨a1, a2, a3⟩ <;> rcases hc with ⟨b1, b2, b3⟩ | ⟨b1, b2, b3⟩
      · exact le_antisymm (a3 c b1) (b3 b a1)
      · have : (c:ℝ) ≤ _ := b2; linarith
      · linarith
      · exact le_antisymm (b3 b a2) (a3 c b2)
    subst hbc
    linarith
  by_cases h : ∃ e, LeavesThrough n nm zl th zl z kz e ∨ LeavesThrough n nm zl th th z kz e
  · obtain ⟨e, he, hmin⟩ : ∃ e, (LeavesThrough n nm zl th zl z kz e ∨ LeavesThrough n nm zl th th z kz e) ∧
        ∀ e', e' < e → ¬ (LeavesThrough n nm zl th zl z kz e' ∨ LeavesThrough n nm zl th th z kz e') := by
      have hwf := (wellFounded_lt (α := Fin nev)).has_min {e | LeavesThrough n nm zl th zl z kz e ∨ LeavesThrough n nm zl th th z kz e} h
      obtain ⟨e, he, hm⟩ := hwf
      exact ⟨e, he, fun e' hlt hx => hm e' hx hlt⟩
    have hmin' : ∀ e', e' < e → ¬ LeavesThrough n nm zl th zl z kz e' ∧ ¬ LeavesThrough n nm zl th th z kz e' :=
      fun e' hlt => ⟨fun hx => hmin e' hlt (Or.inl hx), fun hx => hmin e' hlt (Or.inr hx)⟩
    rcases he with he | he
    · refine ⟨.reflected e, ⟨he, hmin'⟩, ?_⟩
      rintro (e' | e' | _) hf
      · have h1 : ¬ e' < e := fun hlt => (hmin' e' hlt).1 hf.1
        have h2 : ¬ e < e' := fun hlt => (hf.2 e hlt).1 he
        rw [le_antisymm (not_lt.mp h2) (not_lt.mp h1)]
      · exfalso
        have h1 : ¬ e' < e := fun hlt => (hmin' e' hlt).2 hf.1
        have h2 : ¬ e < e' := fun hlt => (hf.2 e hlt).1 he
        have := le_antisymm (not_lt.mp h2) (not_lt.mp h1)
        subst this
        exact hne _ ⟨he, hf.1⟩
      · exact absurd he (hf e).1
    · refine ⟨.transmitted e, ⟨he, hmin'⟩, ?_⟩
      rintro (e' | e' | _) hf
      · exfalso
        have h1 : ¬ e' < e := fun hlt => (hmin' e' hlt).1 hf.1
        have h2 : ¬ e < e' := fun hlt => (hf.2 e hlt).2 he
        have := le_antisymm (not_lt.mp h2) (not_lt.mp h1)
        subst this
        exact hne _ ⟨hf.1, he⟩
      · have h1 : ¬ e' < e := fun hlt => (hmin' e' hlt).2 hf.1
        have h2 : ¬ e < e' := fun hlt => (hf.2 e hlt).2 he
        rw [le_antisymm (not_lt.mp h2) (not_lt.mp h1)]
      · exact absurd he (hf e).2
  · push Not at h
    refine ⟨.trapped, h, ?_⟩
    rintro (e' | e' | _) hf
    · exact absurd hf.1 (h e').1
    · exact absurd hf.1 (h e').2
    · rfl

theorem sel_last {nev nt : ℕ} (a : Fin (nev + 1) → Fin nt → ℝ) (idx : Fin nt → ℕ) (j : Fin nt) (e : Fin (nev + 1))
    (h : idx j = e + 1) : sel a idx j = a e j := by
  rw [sel_pos a idx j (by omega) (by omega)]
  congr 1
  ext
  simp [h]

/-! ### the theorem -/

theorem fate_numbers {nev nt : ℕ} {n nm th zl : ℝ} (z : Fin (nev + 2) → Fin nt → ℝ) (kz : Fin (nev + 1) → Fin nt → ℝ)
    (hk : ∀ e j, |kz e j| ≤ 1) (hs : 0 < n) (hm : 0 < nm) (hle : nm ≤ n) (hth : zl < th) {fate : Fin nt → Fate (nev + 1)}
    (hf : ∀ j, IsFate n nm zl th (fun e => z e j) (fun e => kz e j) (fate j)) :
    let X := findValidExitsFilm n nm th zl z kz
    let I := findEventIndices X.neg X.pos X.tir
    (∀ j, I.1 j = match (fate j).reflEvent with | some e => e + 1 | none => 0) ∧
    (∀ j, I.2.1 j = match (fate j).transEvent with | some e => e + 1 | none => 0) ∧
    (∀ j, I.2.2.1 j = match (fate j).lastEvent with | some e => e + 1 | none => 0) := by
  intro X I
  refine ⟨fun j => ?_, fun j => ?_, fun j => ?_⟩
  all_goals
    have h := numbers_of_fate hs hm hle hth z kz hk j (fate j) (hf j)
    cases hh : fate j <;> rw [hh] at h
  · exact h.1
  · exact h.1
  · exact h.1
  · exact h.2.1
  · exact h.2.1
  · exact h.2.1
  · exact h.2.2
  · exact h.2.2
  · exact h.2.2

/-- the numbers of `Optics` as the specification names them -/
def _root_.Verif.Weights.Optics.medium (o : Optics) : FilmOptics :=
  { outside := o.n_medium, sample := o.n_sample, surface := o.n_tir, front := o.n_front, back := o.n_back
    limit := o.detection_angle }

theorem film_estimator_core {nev nt : ℕ} {o : Optics} {thickness z_low : ℝ} (z : Fin (nev + 2) → Fin nt → ℝ)
    {kz w : Fin (nev + 1) → Fin nt → ℝ} {kz0_rot kz0_refl : Option (Fin nt → ℝ)} (det : Bool)
    {filter : (Fin nt → ℕ) → Fin nt → ℕ} (H : FilmOK o kz w kz0_rot filter)
    (hns : 0 < o.n_sample)
    {eR eT eS : Fin nt → Option (Fin (nev + 1))}
    (hri : ∀ j, (filmGeometry o thickness z_low z kz kz0_rot filter).ri j = match eR j with | some e => e + 1 | none => 0)
    (hti : ∀ j, (filmGeometry o thickness z_low z kz kz0_rot filter).ti j = match eT j with | some e => e + 1 | none => 0)
    (hsi : ∀ j, (filmGeometry o thickness z_low z kz kz0_rot filter).si j = match eS j with | some e => e + 1 | none => 0)
    {θinc : Fin nt → ℝ} (hθ : ∀ j, incAngleFilm o.n_medium o.n_tir (kz 0) kz0_rot j = fin (θinc j))
    {seenInc : Fin nt → Prop}
    (hseen : ∀ (i : Fin nt → ℝ) j, irOf o.n_medium (fun j => Real.arccos |kz 0 j|) i kz0_refl o.detection_angle j =
      if seenInc j then 1 - i j else 0) :
    let p := filmPhotons o.medium kz w eR eT eS θinc seenInc
    ∃ rt, calcReflTrans o .film (filmGeometry o thickness z_low z kz kz0_rot filter) kz0_refl det (fun e j => fin (w e j)) =
        .ok rt ∧
      ((Photon.known p = 0 ∧ rt.R = nan ∧ rt.T = nan) ∨
       (Photon.known p ≠ 0 ∧ (∀ j, rt.reflPer j = fin (if det then Photon.reflGonio p j else Photon.refl p j)) ∧
        (∀ j, rt.transPer j = fin (Photon.trans p j)) ∧
        rt.R = fin (∑ j, if det then Photon.reflGonio p j else Photon.refl p j) ∧ rt.T = fin (∑ j, Photon.trans p j))) := by
  intro p
  rcases film_cases thickness z_low z kz0_refl H det with ⟨⟨j, hj⟩, -⟩ | ⟨i, hi01, hi, hrest⟩
  · rw [hθ j] at hj; exact absurd hj (by simp)
  set g := filmGeometry o thickness z_low z kz kz0_rot filter with hg
  set c := filmShadow o thickness z_low z kz w kz0_rot filter i with hc
  obtain ⟨hgood, hrest⟩ := hrest
  have hent : ∀ j, i j = (p j).enter := by
    intro j
    obtain ⟨t, ht, h0, h1, hv⟩ := hi j
    rw [hθ j] at ht
    have ht' : θinc j = t := by simpa using ht
    rw [hv, platePass_eq _ H.medium H.tir H.front h0 h1, ← ht']
    rfl
  have hsel : ∀ (a : Fin (nev + 1) → Fin nt → ℝ) (idx : Fin nt → ℕ) (ev : Fin nt → Option (Fin (nev + 1))),
      (∀ j, idx j = match ev j with | some e => e + 1 | none => 0) → ∀ j, sel a idx j = valueAt (ev j) fun e => a e j := by
    intro a idx ev h j
    have := h j
    cases hf : ev j with
    | some e => rw [hf] at this; rw [sel_last a idx j e this]; rfl
    | none => rw [hf] at this; rw [sel_zero a idx j this]; rfl
  have hselR := fun a => hsel a g.ri eR hri
  have hselT := fun a => hsel a g.ti eT hti
  have hselS := fun a => hsel a g.si eS hsi
  have hr : ∀ j, c.r j = (p j).outR := fun j => by
    show i j * sel w g.ri j = _
    rw [hselR, hent]; rfl
  have ht : ∀ j, c.t j = (p j).outT := fun j => by
    show i j * sel w g.ti j = _
    rw [hselT, hent]; rfl
  have hs : ∀ j, c.s j = (p j).trapped := fun j => by
    show i j * sel w g.si j = _
    rw [hselS, hent]; rfl
  have hpr : ∀ j, c.pr j = (p j).escR := fun j => by
    show passFrac o.n_tir o.n_front o.n_medium (Real.arccos |sel kz g.ri j|) = _
    rw [hselR, platePass_eq _ H.tir H.medium H.front (arccos_abs_mem _).1 (arccos_abs_mem _).2]; rfl
  have hpt : ∀ j, c.pt j = (p j).escT := fun j => by
    show passFrac o.n_tir o.n_back o.n_medium (Real.arccos |sel kz g.ti j|) = _
    rw [hselT, platePass_eq _ H.tir H.medium H.back (arccos_abs_mem _).1 (arccos_abs_mem _).2]; rfl
  have hPr : ∀ j, c.Pr j = (p j).outR * (p j).escR := fun j => by unfold RIn.Pr; rw [hr, hpr]
  have hPt : ∀ j, c.Pt j = (p j).outT * (p j).escT := fun j => by unfold RIn.Pt; rw [ht, hpt]
  have hdr : ∀ j, c.dr o.n_sample o.n_medium o.detection_angle j =
      if (p j).seenR then (p j).outR * (p j).escR else 0 := fun j => by
    unfold RIn.dr
    rw [hPr]
    show dcR _ _ _ (Real.arccos |sel kz g.ri j|) _ = _
    rw [hselR, seen_dcR H.medium hns (arccos_abs_mem _).1 (arccos_abs_mem _).2]; rfl
  have hdt : ∀ j, c.dt o.n_sample o.n_medium o.detection_angle j =
      if (p j).seenT then (p j).outT * (p j).escT else 0 := fun j => by
    unfold RIn.dt
    rw [hPt]
    show dcR _ _ _ (Real.arccos |sel kz g.ti j|) _ = _
    rw [hselT, seen_dcR H.medium hns (arccos_abs_mem _).1 (arccos_abs_mem _).2]; rfl
  have hsPr : ∑ j, c.Pr j = Photon.escapedR p := Finset.sum_congr rfl fun j _ => hPr j
  have hsPt : ∑ j, c.Pt j = Photon.escapedT p := Finset.sum_congr rfl fun j _ => hPt j
  have hsa : ∑ j, c.a j = Photon.absorbed p := Finset.sum_congr rfl fun j _ => by
    show c.i j - c.r j - c.t j - c.s j = _
    rw [hr, ht, hs]; rw [show c.i j = (p j).enter from hent j]
  have hknown : c.known = Photon.known p := by
    rw [hgood.known_eq, hsPr, hsPt, hsa]; rfl
  have hrf : c.rf = Photon.escapedR p / Photon.known p := by unfold RIn.rf; rw [hsPr, hknown]
  have htf : c.tf = Photon.escapedT p / Photon.known p := by unfold RIn.tf; rw [hsPt, hknown]
  have hfr : ∀ j, c.fr j = (p j).outR * (1 - (p j).escR) := fun j => by unfold RIn.fr; rw [hPr, hr]; ring
  have hft : ∀ j, c.ft j = (p j).outT * (1 - (p j).escT) := fun j => by unfold RIn.ft; rw [hPt, ht]; ring
  have heps : EPS = 1 / 10 ^ 9 := rfl
  have hrdf : c.rdf o.n_sample o.n_medium o.detection_angle = Photon.shareR p := by
    unfold RIn.rdf Photon.shareR
    rw [Finset.sum_congr rfl fun j _ => hdr j, hsPr, heps]
  have htdf : c.tdf o.n_sample o.n_medium o.detection_angle = Photon.shareT p := by
    unfold RIn.tdf Photon.shareT
    rw [Finset.sum_congr rfl fun j _ => hdt j, hsPt, heps]
  rcases hrest with ⟨hk, rt, hrt, hR, hT⟩ | ⟨hk, rt, hrt, hR, hT, hRp, hTp⟩
  · exact ⟨rt, hrt, Or.inl ⟨by rw [← hknown]; exact hk, hR, hT⟩⟩
  · have e1 : ∀ j, (c.dr o.n_sample o.n_medium o.detection_angle j +
        c.er det j * c.rdf o.n_sample o.n_medium o.detection_angle + (if det = true then 0 else
          irOf o.n_medium (fun j => Real.arccos |kz 0 j|) i kz0_refl o.detection_angle j)) / nt =
          if det then Photon.reflGonio p j else Photon.refl p j := by
      intro j
      have hinc : (if (p j).seenInc then 1 - (p j).enter else (0:ℝ)) = if seenInc j then 1 - (p j).enter else 0 := rfl
      unfold Photon.refl Photon.reflGonio RIn.er
      rw [hdr, hrdf, hseen, hfr, hft, hrf, htf, hs, hent, hinc]
      cases det
      · simp only [Bool.false_eq_true, if_false]
        congr 1
        ring
      · simp only [if_true]
        congr 1
        ring
    have e2 : ∀ j, (c.dt o.n_sample o.n_medium o.detection_angle j +
        c.et j * c.tdf o.n_sample o.n_medium o.detection_angle) / nt = Photon.trans p j := by
      intro j
      unfold Photon.trans RIn.et
      rw [hdt, htdf, hfr, hft, hrf, htf, hs]
      congr 1
      ring
    refine ⟨rt, hrt, Or.inr ⟨by rw [← hknown]; exact hk, ?_, ?_, ?_, ?_⟩⟩
    · intro j; rw [hRp j]; exact congrArg fin (e1 j)
    · intro j; rw [hTp j, e2]
    · rw [hR]; congr 1; exact Finset.sum_congr rfl fun j _ => e1 j
    · rw [hT]; congr 1; exact Finset.sum_congr rfl fun j _ => e2 j

theorem incAngle_of_snell {nev nt : ℕ} {o : Optics} {kz w : Fin (nev + 1) → Fin nt → ℝ}
    {filter : (Fin nt → ℕ) → Fin nt → ℕ} (H : FilmOK o kz w none filter)
    {θinc : Fin nt → ℝ} (hθ0 : ∀ j, 0 ≤ θinc j ∧ θinc j ≤ Real.pi / 2)
    (hθ : ∀ j, Snell o.n_medium o.n_tir (θinc j) (Real.arccos |kz 0 j|)) (j : Fin nt) :
    incAngleFilm o.n_medium o.n_tir (kz 0) none j = fin (θinc j) := by
  unfold incAngleFilm
  simp only
  have hs := hθ j
  unfold Snell at hs
  have e : o.n_tir / o.n_medium * Real.sin (Real.arccos |kz 0 j|) = Real.sin (θinc j) := by
    have := H.medium.ne'
    field_simp; linarith
  rw [angleFilm_fin (H.kz1 0 j), refraction1_fin H.medium.ne', e, if_neg (not_lt.mpr (Real.abs_sin_le_one _)),
    Real.arcsin_sin (by linarith [(hθ0 j).1, Real.pi_pos]) (hθ0 j).2, XF.cos_fin, angleFilm_fin (Real.abs_cos_le_one _),
    abs_of_nonneg (Real.cos_nonneg_of_mem_Icc ⟨by linarith [(hθ0 j).1, Real.pi_pos], (hθ0 j).2⟩),
    Real.arccos_cos (hθ0 j).1 (by linarith [(hθ0 j).2, Real.pi_pos])]

theorem seenInc_smooth {nev nt : ℕ} {o : Optics} {kz w : Fin (nev + 1) → Fin nt → ℝ}
    {filter : (Fin nt → ℕ) → Fin nt → ℕ} (H : FilmOK o kz w none filter) (i : Fin nt → ℝ) (j : Fin nt) :
    irOf o.n_medium (fun j => Real.arccos |kz 0 j|) i none o.detection_angle j =
      if Real.arccos |kz 0 j| ≤ o.detection_angle then 1 - i j else 0 := by
  show dcR _ _ _ _ _ = _
  rw [seen_dcR H.medium H.medium (arccos_abs_mem _).1 (arccos_abs_mem _).2]
  have : SeenWithin o.n_medium o.n_medium o.detection_angle (Real.arccos |kz 0 j|) ↔
      Real.arccos |kz 0 j| ≤ o.detection_angle := by
    unfold SeenWithin Snell
    constructor
    · rintro ⟨φ, ⟨h1, h2⟩, h3, h4⟩
      have h3' : Real.sin (Real.arccos |kz 0 j|) = Real.sin φ := mul_left_cancel₀ H.medium.ne' h3
      have := congrArg Real.arcsin h3'
      rw [Real.arcsin_sin h1 h2, Real.arcsin_sin (by linarith [(arccos_abs_mem (kz 0 j)).1, Real.pi_pos])
        (arccos_abs_mem (kz 0 j)).2] at this
      rw [this]; exact h4
    · intro h
      exact ⟨_, ⟨by linarith [(arccos_abs_mem (kz 0 j)).1, Real.pi_pos], (arccos_abs_mem (kz 0 j)).2⟩, rfl, h⟩
  simp only [this]

/-- C101 (smooth film).  `calc_refl_trans` for a film without goniometer computes the documented estimator
(Verif/SpecFilm.lean): photon `j` enters with the fraction of light that the front plate passes at its angle of incidence
`θinc j` in the medium, has exactly one fate, escapes at the face with the fraction passed by the plate there, and is seen if
it leaves within the detection angle; light of unknown final state is redistributed; per-trajectory values and totals are
those of the specification, and both are NaN exactly if no light has a known final state.  The light reflected at first
incidence is counted if the direction inside the sample is within the detection angle (see C102). -/
theorem C101_film_estimator {nev nt : ℕ} {o : Optics} {thickness z_low : ℝ} (z : Fin (nev + 2) → Fin nt → ℝ)
    {kz w : Fin (nev + 1) → Fin nt → ℝ} (filter : (Fin nt → ℕ) → Fin nt → ℕ) (H : FilmOK o kz w none id)
    (hns : 0 < o.n_sample) (hle : o.n_medium ≤ o.n_tir) (hth : z_low < thickness)
    {fate : Fin nt → Fate (nev + 1)}
    (hfate : ∀ j, IsFate o.n_tir o.n_medium z_low thickness (fun e => z e j) (fun e => kz e j) (fate j))
    {θinc : Fin nt → ℝ} (hθ0 : ∀ j, 0 ≤ θinc j ∧ θinc j ≤ Real.pi / 2)
    (hθ : ∀ j, Snell o.n_medium o.n_tir (θinc j) (Real.arccos |kz 0 j|)) :
    let p := filmPhotons o.medium kz w (fun j => (fate j).reflEvent) (fun j => (fate j).transEvent) (fun j => (fate j).lastEvent) θinc
      fun j => Real.arccos |kz 0 j| ≤ o.detection_angle
    ∃ rt, calcReflTransFilm o thickness z_low z kz w none none false filter = .ok rt ∧
      ((Photon.known p = 0 ∧ rt.R = nan ∧ rt.T = nan) ∨
       (Photon.known p ≠ 0 ∧ (∀ j, rt.reflPer j = fin (Photon.refl p j)) ∧ (∀ j, rt.transPer j = fin (Photon.trans p j)) ∧
        rt.R = fin (∑ j, Photon.refl p j) ∧ rt.T = fin (∑ j, Photon.trans p j))) := by
  intro p
  rw [film_call_eq _ _ _ _ _ _ _ _ _ _ rfl]
  obtain ⟨h1, h2, h3⟩ := fate_numbers z kz H.kz1 H.tir H.medium hle hth hfate
  refine film_estimator_core z false H hns (eR := fun j => (fate j).reflEvent) (eT := fun j => (fate j).transEvent)
    (eS := fun j => (fate j).lastEvent) h1 h2 h3 (θinc := θinc)
    (incAngle_of_snell H hθ0 hθ) (seenInc_smooth H)

/-- C101 (coarse roughness).  With the arrays of local cosines that `coarse_roughness_enter` returns, the angle of incidence
is the angle to the facet, `arccos |kz0_rot|`, and the light reflected at first incidence is counted if its reflected
direction points back within the detection angle; everything else is as for the smooth film. -/
theorem C101_rough_film_estimator {nev nt : ℕ} {o : Optics} {thickness z_low : ℝ} (z : Fin (nev + 2) → Fin nt → ℝ)
    {kz w : Fin (nev + 1) → Fin nt → ℝ} {kr kf : Fin nt → ℝ} (filter : (Fin nt → ℕ) → Fin nt → ℕ)
    (H : FilmOK o kz w (some kr) id) (hkf : ∀ j, |kf j| ≤ 1)
    (hns : 0 < o.n_sample) (hle : o.n_medium ≤ o.n_tir) (hth : z_low < thickness)
    {fate : Fin nt → Fate (nev + 1)}
    (hfate : ∀ j, IsFate o.n_tir o.n_medium z_low thickness (fun e => z e j) (fun e => kz e j) (fate j)) :
    let p := filmPhotons o.medium kz w (fun j => (fate j).reflEvent) (fun j => (fate j).transEvent) (fun j => (fate j).lastEvent)
      (fun j => Real.arccos |kr j|) fun j => Real.pi - Real.arccos (kf j) ≤ o.detection_angle
    ∃ rt, calcReflTransFilm o thickness z_low z kz w (some kr) (some kf) false filter = .ok rt ∧
      ((Photon.known p = 0 ∧ rt.R = nan ∧ rt.T = nan) ∨
       (Photon.known p ≠ 0 ∧ (∀ j, rt.reflPer j = fin (Photon.refl p j)) ∧ (∀ j, rt.transPer j = fin (Photon.trans p j)) ∧
        rt.R = fin (∑ j, Photon.refl p j) ∧ rt.T = fin (∑ j, Photon.trans p j))) := by
  intro p
  rw [film_call_eq o thickness z_low z kz w (some kr) (some kf) false filter rfl]
  obtain ⟨h1, h2, h3⟩ := fate_numbers z kz H.kz1 H.tir H.medium hle hth hfate
  refine film_estimator_core z false H hns (eR := fun j => (fate j).reflEvent) (eT := fun j => (fate j).transEvent)
    (eS := fun j => (fate j).lastEvent) h1 h2 h3 (θinc := fun j => Real.arccos |kr j|) ?_ ?_
  · intro j
    show angleFilm (fin (kr j)) = _
    exact angleFilm_fin (H.rot1 kr rfl j)
  · intro i j
    show (if XF.arccos (fin (kf j)) < fin (Real.pi - o.detection_angle) then (0:ℝ) else 1 - i j) = _
    rw [XF.arccos_of_mem (abs_le.mp (hkf j)).1 (abs_le.mp (hkf j)).2, fin_lt]
    by_cases h : Real.arccos (kf j) < Real.pi - o.detection_angle
    · rw [if_pos h, if_neg (by linarith)]
    · rw [if_neg h, if_pos (by linarith)]

/-- C101 (goniometer).  With `detector=True`, a reflected photon counts only if the goniometer keeps it (`kept j`): for the
others nothing arrives at the illuminated face, so that their light is booked as absorbed; light reflected at first
incidence is not counted.  Reflectance and transmittance (before the normalisation of C29) are those of the specification. -/
theorem C101_goniometer_estimator {nev nt : ℕ} {o : Optics} {thickness z_low : ℝ} (z : Fin (nev + 2) → Fin nt → ℝ)
    {kz w : Fin (nev + 1) → Fin nt → ℝ} {filter : (Fin nt → ℕ) → Fin nt → ℕ} (H : FilmOK o kz w none filter)
    {kept : Fin nt → Prop} (hkept : ∀ f j, filter f j = if kept j then f j else 0)
    (hns : 0 < o.n_sample) (hle : o.n_medium ≤ o.n_tir) (hth : z_low < thickness)
    {fate : Fin nt → Fate (nev + 1)}
    (hfate : ∀ j, IsFate o.n_tir o.n_medium z_low thickness (fun e => z e j) (fun e => kz e j) (fate j))
    {θinc : Fin nt → ℝ} (hθ0 : ∀ j, 0 ≤ θinc j ∧ θinc j ≤ Real.pi / 2)
    (hθ : ∀ j, Snell o.n_medium o.n_tir (θinc j) (Real.arccos |kz 0 j|)) :
    let p := filmPhotons o.medium kz w (fun j => if kept j then (fate j).reflEvent else none) (fun j => (fate j).transEvent)
      (fun j => (fate j).lastEvent) θinc fun _ => False
    ∃ rt, calcReflTransFilm o thickness z_low z kz w none none true filter = .ok rt ∧
      ((Photon.known p = 0 ∧ rt.R = nan ∧ rt.T = nan) ∨
       (Photon.known p ≠ 0 ∧ (∀ j, rt.reflPer j = fin (Photon.reflGonio p j)) ∧
        (∀ j, rt.transPer j = fin (Photon.trans p j)) ∧
        rt.R = fin (∑ j, Photon.reflGonio p j) ∧ rt.T = fin (∑ j, Photon.trans p j))) := by
  intro p
  rw [film_call_eq _ _ _ _ _ _ _ _ _ _ rfl]
  obtain ⟨h1, h2, h3⟩ := fate_numbers z kz H.kz1 H.tir H.medium hle hth hfate
  have h1' : ∀ j, (filmGeometry o thickness z_low z kz none filter).ri j =
      match (if kept j then (fate j).reflEvent else none) with | some e => e + 1 | none => 0 := by
    intro j
    show filter _ j = _
    rw [hkept]
    by_cases hk : kept j
    · simp only [if_pos hk]; exact h1 j
    · simp only [if_neg hk]
  obtain ⟨rt, hrt, h⟩ := film_estimator_core z true H hns (eR := fun j => if kept j then (fate j).reflEvent else none)
    (eT := fun j => (fate j).transEvent) (eS := fun j => (fate j).lastEvent) (kz0_refl := none) h1' h2 h3 (θinc := θinc)
    (incAngle_of_snell H hθ0 hθ) (seenInc := fun j => Real.arccos |kz 0 j| ≤ o.detection_angle) (seenInc_smooth H)
  refine ⟨rt, hrt, ?_⟩
  simp only [if_true] at h
  exact h

/-- C102 (refuted).  Light reflected at first incidence leaves at the angle of incidence in the medium, but it is counted
whenever the refracted direction *inside* the sample is within the detection angle.  Smooth film in a thinner medium without
cover slip, photons that are absorbed completely: for an angle of incidence beyond the detection angle whose refracted
angle is within it, the reflectance is the Fresnel reflectance of the surface and not 0. -/
theorem C102_specular_detection_refuted {nev nt : ℕ} {o : Optics} {thickness z_low : ℝ} (z : Fin (nev + 2) → Fin nt → ℝ)
    {kz w : Fin (nev + 1) → Fin nt → ℝ} (filter : (Fin nt → ℕ) → Fin nt → ℕ) (H : FilmOK o kz w none id)
    (hns : 0 < o.n_sample) (hlt : o.n_medium < o.n_tir) (hth : z_low < thickness) (hf : o.n_front = none)
    (hw : ∀ e j, w e j = 0) {θ : ℝ} (hθ0 : 0 ≤ θ) (hθ1 : θ < Real.pi / 2)
    (hsn : ∀ j, Snell o.n_medium o.n_tir θ (Real.arccos |kz 0 j|))
    (_hout : o.detection_angle < θ) (hin : ∀ j, Real.arccos |kz 0 j| ≤ o.detection_angle) :
    ∃ rt R, calcReflTransFilm o thickness z_low z kz w none none false filter = .ok rt ∧ rt.R = fin R ∧
      R = 1 - platePass o.n_medium none o.n_tir θ ∧ 0 < R := by
  have hfate : ∀ j, ∃ f, IsFate o.n_tir o.n_medium z_low thickness (fun e => z e j) (fun e => kz e j) f := fun j =>
    (fate_exists_unique _ _ hth _ _).exists
  choose fate hfate using hfate
  obtain ⟨rt, hrt, h⟩ := C101_film_estimator z filter H hns hlt.le hth hfate (θinc := fun _ => θ)
    (fun _ => ⟨hθ0, hθ1.le⟩) hsn
  set p := filmPhotons o.medium kz w (fun j => (fate j).reflEvent) (fun j => (fate j).transEvent) (fun j => (fate j).lastEvent)
    (fun _ => θ) fun j => Real.arccos |kz 0 j| ≤ o.detection_angle with hp
  have hR0 : ∀ j, (p j).outR = 0 := fun j => by
    show _ * valueAt (fate j).reflEvent (fun e => w e j) = 0
    cases fate j <;> simp [valueAt, Fate.reflEvent, hw]
  have hT0 : ∀ j, (p j).outT = 0 := fun j => by
    show _ * valueAt (fate j).transEvent (fun e => w e j) = 0
    cases fate j <;> simp [valueAt, Fate.transEvent, hw]
  have hS0 : ∀ j, (p j).trapped = 0 := fun j => by
    show _ * valueAt (fate j).lastEvent (fun e => w e j) = 0
    cases fate j <;> simp [valueAt, Fate.lastEvent, hw]
  have hent : ∀ j, (p j).enter = platePass o.n_medium none o.n_tir θ := fun j => by
    show platePass o.n_medium o.n_front o.n_tir θ = _
    rw [hf]
  have hsin0 : 0 ≤ Real.sin θ := Real.sin_nonneg_of_nonneg_of_le_pi hθ0 (by linarith [Real.pi_pos])
  have hsin1 : Real.sin θ < 1 := by
    rw [← Real.sin_pi_div_two]
    exact Real.sin_lt_sin_of_lt_of_le_pi_div_two (by linarith [Real.pi_pos]) le_rfl hθ1
  have hm := H.medium
  have hpos : 0 < platePass o.n_medium none o.n_tir θ := by
    rw [← platePass_eq none hm H.tir (by simp) hθ0 hθ1.le]
    refine lt_of_le_of_ne (passFrac_mem none hm (by simp) hθ0 hθ1.le).1 fun h0 => ?_
    have := (C08_pass_frac_zero_iff (na := o.n_tir) none hm H.tir (by simp) hθ0 hθ1.le).mp h0.symm
    simp only [Option.getD_none] at this
    rcases this with h | h | h
    · nlinarith
    · nlinarith
    · linarith
  have hlt1 : platePass o.n_medium none o.n_tir θ < 1 := by
    unfold platePass
    simp only [Option.getD_none]
    rw [if_neg (by push Not; exact ⟨by nlinarith, by nlinarith, hθ1.ne⟩), mul_div_cancel_left₀ _ hm.ne',
      Real.arcsin_sin (by linarith [Real.pi_pos]) hθ1.le]
    have h0 : fresnelR o.n_medium o.n_medium θ θ = 0 := by unfold fresnelR; simp
    have h2 : 0 ≤ fresnelR o.n_medium o.n_tir θ (Real.arcsin (o.n_medium * Real.sin θ / o.n_tir)) := by
      unfold fresnelR; positivity
    rw [h0, div_lt_one (by norm_num)]
    norm_num
    linarith
  have hknown : Photon.known p ≠ 0 := by
    have : Photon.known p = nt * platePass o.n_medium none o.n_tir θ := by
      unfold Photon.known Photon.absorbed Photon.escapedR Photon.escapedT
      simp only [hR0, hT0, hS0, hent, zero_mul, Finset.sum_const_zero, sub_zero, add_zero, Finset.sum_const,
        Finset.card_univ, Fintype.card_fin, nsmul_eq_mul]
    rw [this]
    have : (0:ℝ) < nt := by exact_mod_cast H.nt_pos
    positivity
  rcases h with ⟨h, -⟩ | ⟨-, -, -, hR, -⟩
  · exact absurd h hknown
  · refine ⟨rt, _, hrt, hR, ?_, ?_⟩
    all_goals
      have hn : (nt:ℝ) ≠ 0 := by exact_mod_cast H.nt_pos.ne'
      have hval : ∑ j, Photon.refl p j = 1 - platePass o.n_medium none o.n_tir θ := by
        have : ∀ j, Photon.refl p j = (1 - platePass o.n_medium none o.n_tir θ) / nt := by
          intro j
          unfold Photon.refl
          have hsee : (p j).seenInc := hin j
          simp only [hR0, hT0, hS0, hent, if_pos hsee, zero_mul, zero_div, add_zero, zero_add, ite_self]
        rw [Finset.sum_congr rfl fun j _ => this j, Finset.sum_const, Finset.card_univ, Fintype.card_fin, nsmul_eq_mul]
        field_simp
    · exact hval
    · rw [hval]; linarith

private theorem specular_same {nm nt θ θin limit : ℝ} (hm : 0 < nm) (hθ0 : 0 ≤ θ) (hθ1 : θ ≤ Real.pi / 2)
    (hi0 : 0 ≤ θin) (hi1 : θin ≤ Real.pi / 2) (hsn : Snell nm nt θ θin) (ht : 0 < nt)
    (h : θ = 0 ∨ nm = nt ∨ limit = Real.pi / 2) : θin ≤ limit ↔ θ ≤ limit := by
  unfold Snell at hsn
  have hpi := Real.pi_pos
  rcases h with h | h | h
  · subst h
    have h0 : Real.sin θin = 0 := by
      rw [Real.sin_zero, mul_zero] at hsn
      exact (mul_eq_zero.mp hsn.symm).resolve_left ht.ne'
    have : θin = 0 := by
      have := congrArg Real.arcsin h0
      rwa [Real.arcsin_sin (by linarith) hi1, Real.arcsin_zero] at this
    rw [this]
  · subst h
    have h0 := congrArg Real.arcsin (mul_left_cancel₀ hm.ne' hsn)
    rw [Real.arcsin_sin (by linarith) hi1, Real.arcsin_sin (by linarith) hθ1] at h0
    rw [h0]
  · subst h
    exact ⟨fun _ => hθ1, fun _ => hi1⟩

/-- C102 (partial).  The rule is right when it cannot matter: at normal incidence, for equal indices, or with detection over
the full hemisphere, `calc_refl_trans` computes the estimator in which light reflected at first incidence is counted
exactly if its angle in the medium is within the detection angle.  Missing: oblique incidence on a denser sample with a
smaller detection angle (refuted above). -/
theorem C102_specular_detection_partial {nev nt : ℕ} {o : Optics} {thickness z_low : ℝ} (z : Fin (nev + 2) → Fin nt → ℝ)
    {kz w : Fin (nev + 1) → Fin nt → ℝ} (filter : (Fin nt → ℕ) → Fin nt → ℕ) (H : FilmOK o kz w none id)
    (hns : 0 < o.n_sample) (hle : o.n_medium ≤ o.n_tir) (hth : z_low < thickness)
    {fate : Fin nt → Fate (nev + 1)}
    (hfate : ∀ j, IsFate o.n_tir o.n_medium z_low thickness (fun e => z e j) (fun e => kz e j) (fate j))
    {θinc : Fin nt → ℝ} (hθ0 : ∀ j, 0 ≤ θinc j ∧ θinc j ≤ Real.pi / 2)
    (hθ : ∀ j, Snell o.n_medium o.n_tir (θinc j) (Real.arccos |kz 0 j|))
    (h : (∀ j, θinc j = 0) ∨ o.n_medium = o.n_tir ∨ o.detection_angle = Real.pi / 2) :
    let p := filmPhotons o.medium kz w (fun j => (fate j).reflEvent) (fun j => (fate j).transEvent) (fun j => (fate j).lastEvent) θinc
      fun j => θinc j ≤ o.detection_angle
    ∃ rt, calcReflTransFilm o thickness z_low z kz w none none false filter = .ok rt ∧
      ((Photon.known p = 0 ∧ rt.R = nan ∧ rt.T = nan) ∨
       (Photon.known p ≠ 0 ∧ rt.R = fin (∑ j, Photon.refl p j) ∧ rt.T = fin (∑ j, Photon.trans p j))) := by
  intro p
  have e : p = filmPhotons o.medium kz w (fun j => (fate j).reflEvent) (fun j => (fate j).transEvent) (fun j => (fate j).lastEvent) θinc
      fun j => Real.arccos |kz 0 j| ≤ o.detection_angle := by
    show filmPhotons _ _ _ _ _ _ _ _ = _
    congr 1
    funext j
    refine propext (specular_same (θ := θinc j) H.medium (hθ0 j).1 (hθ0 j).2 (arccos_abs_mem _).1 (arccos_abs_mem _).2 (hθ j) H.tir ?_).symm
    rcases h with h | h | h
    · exact Or.inl (h j)
    · exact Or.inr (Or.inl h)
    · exact Or.inr (Or.inr h)
  obtain ⟨rt, hrt, hh⟩ := C101_film_estimator z filter H hns hle hth hfate hθ0 hθ
  rw [← e] at hh
  refine ⟨rt, hrt, ?_⟩
  rcases hh with hh | ⟨h1, -, -, h4, h5⟩
  · exact Or.inl hh
  · exact Or.inr ⟨h1, h4, h5⟩

/-- a film of index 3/2 in air seen by a detector of half-angle 0.6 -/
def demoOblique : Optics :=
  { n_medium := 1, n_sample := 3 / 2, n_tir := 3 / 2, n_front := none, n_back := some 2, detection_angle := 3 / 5 }

/-- Non-vacuity of C101 and C102: two photons incident from air at an angle with sine 3/5 (0.64 rad), which is 2/5 inside
(0.41 rad); the second event sends them back. -/
example : ∃ (kz w : Fin 2 → Fin 2 → ℝ) (z : Fin 3 → Fin 2 → ℝ) (fate : Fin 2 → Fate 2),
    FilmOK demoOblique kz w none id ∧ (∀ e j, w e j = 0) ∧
    (∀ j, IsFate demoOblique.n_tir demoOblique.n_medium 0 10 (fun e => z e j) (fun e => kz e j) (fate j)) ∧
    (∀ j, Snell demoOblique.n_medium demoOblique.n_tir (Real.arcsin (3 / 5)) (Real.arccos |kz 0 j|)) ∧
    demoOblique.detection_angle < Real.arcsin (3 / 5) ∧ ∀ j, Real.arccos |kz 0 j| ≤ demoOblique.detection_angle := by
  have hs : |Real.sqrt (21 / 25)| = Real.sqrt (21 / 25) := abs_of_nonneg (Real.sqrt_nonneg _)
  have h1 : Real.sqrt (21 / 25) ≤ 1 := Real.sqrt_le_one.mpr (by norm_num)
  have hsin : Real.sin (Real.arccos (Real.sqrt (21 / 25))) = 2 / 5 := by
    rw [Real.sin_arccos, Real.sq_sqrt (by norm_num), show (1 - 21 / 25 : ℝ) = (2 / 5) ^ 2 by norm_num,
      Real.sqrt_sq (by norm_num)]
  obtain ⟨f, hf, -⟩ := fate_exists_unique demoOblique.n_tir demoOblique.n_medium (th := 10) (zl := 0) (by norm_num)
    (fun e : Fin 3 => if e = 2 then -1 else 4 * (e : ℕ)) (fun e : Fin 2 => if e = 0 then Real.sqrt (21 / 25) else -1)
  refine ⟨fun e _ => if e = 0 then Real.sqrt (21 / 25) else -1, fun _ _ => 0, fun e _ => if e = 2 then -1 else 4 * (e : ℕ),
    fun _ => f,
    ⟨by norm_num, by norm_num [demoOblique], by norm_num [demoOblique], by simp [demoOblique], ?_, ?_, by simp, by simp,
      by simp⟩, fun _ _ => rfl, ?_, ?_, ?_, ?_⟩
  · intro x hx
    simp only [demoOblique, Option.some.injEq] at hx
    linarith
  · intro e j
    by_cases h : e = 0
    · simp only [h, if_true]; rw [hs]; exact h1
    · simp [h]
  · intro j
    exact hf
  · intro j
    simp only [if_true, hs, Snell, demoOblique]
    rw [hsin, Real.sin_arcsin (by norm_num) (by norm_num)]; norm_num
  · show (3 / 5 : ℝ) < _
    rw [Real.lt_arcsin_iff_sin_lt ⟨by linarith [Real.two_le_pi], by linarith [Real.two_le_pi]⟩ (by norm_num)]
    exact Real.sin_lt (by norm_num)
  · intro j
    simp only [if_true, hs]
    show _ ≤ (3 / 5 : ℝ)
    have hx : Real.arccos (Real.sqrt (21 / 25)) = Real.arcsin (2 / 5) := by
      rw [← hsin, Real.arcsin_sin]
      · linarith [Real.arccos_nonneg (Real.sqrt (21 / 25)), Real.pi_pos]
      · exact Real.arccos_le_pi_div_two.mpr (Real.sqrt_nonneg _)
    rw [hx, Real.arcsin_le_iff_le_sin (by norm_num) ⟨by linarith [Real.two_le_pi], by linarith [Real.two_le_pi]⟩]
    have := Real.sin_gt_sub_cube (x := 3 / 5) (by norm_num)
    norm_num at this
    linarith

/-- Non-vacuity of C101 with a goniometer that keeps the first of two photons. -/
example : FilmOK (nev := 1) (nt := 2) demoOblique (fun _ _ => 1) (fun _ _ => 1 / 3) none (fun f j => if j = 0 then f j else 0) ∧
    (∀ (f : Fin 2 → ℕ) (j : Fin 2), (fun f j => if j = 0 then f j else 0 : (Fin 2 → ℕ) → Fin 2 → ℕ) f j = if j = 0 then f j else 0) ∧
    Snell demoOblique.n_medium demoOblique.n_tir 0 (Real.arccos |1|) := by
  refine ⟨⟨by norm_num, by norm_num [demoOblique], by norm_num [demoOblique], by simp [demoOblique], ?_, ?_, ?_, by simp, ?_⟩,
    fun _ _ => rfl, by simp [Snell]⟩
  · intro x hx; simp only [demoOblique, Option.some.injEq] at hx; linarith
  · intro e j; norm_num
  · intro e j; norm_num
  · intro f j; by_cases h : j = 0 <;> simp [h]

/-- Non-vacuity of C101 with roughness. -/
example : FilmOK (nev := 1) (nt := 2) demoOblique (fun _ _ => 1 / 2) (fun _ _ => 1 / 3) (some fun _ => 1 / 4) id ∧
    ∀ _ : Fin 2, |(-1 / 2 : ℝ)| ≤ 1 := by
  refine ⟨⟨by norm_num, by norm_num [demoOblique], by norm_num [demoOblique], by simp [demoOblique], ?_, ?_, ?_, ?_, by simp⟩,
    fun _ => by norm_num [abs_le]⟩
  · intro x hx; simp only [demoOblique, Option.some.injEq] at hx; linarith
  · intro e j; norm_num [abs_le]
  · intro e j; norm_num
  · rintro k hk j; injection hk with hk; rw [← hk]; norm_num [abs_le]

/-- C14 (warning).  `calc_outcome_weights` warns exactly if at least a fifth of the light that entered is still in the sample
after the last event. -/
theorem C14_stuck_warning {nev nt : ℕ} (i : Fin nt → ℝ) (ri ti si : Fin nt → ℕ) (w : Fin nev → Fin nt → ℝ)
    (hi : 0 < ∑ j, i j) :
    let O := calcOutcomeWeights (fun j => fin (i j)) ri ti si (fun e j => fin (w e j))
    ∃ s : Fin nt → ℝ, (∀ j, O.stuck j = fin (s j)) ∧ (O.warn ↔ (∑ j, i j) / 5 ≤ ∑ j, s j) := by
  intro O
  refine ⟨fun j => i j * sel w si j, fun j => ?_, ?_⟩
  · show fin (i j) * sel (fun e j => fin (w e j)) si j = _
    rw [sel_fin, fin_mul]
  · show (fin 20 : XF) ≤ (∑ j, fin (i j) * sel (fun e j => fin (w e j)) si j) / (∑ j, fin (i j)) * fin 100 ↔ _
    simp only [sel_fin, fin_mul, sum_fin, fin_div _ hi.ne', fin_le]
    rw [div_mul_eq_mul_div, le_div_iff₀ hi]
    constructor <;> intro h <;> linarith

/-- Non-vacuity: two photons, one stuck with weight 1/2. -/
example : 0 < ∑ j : Fin 2, (fun _ => (1:ℝ)) j := by simp

end
end Verif.Props
