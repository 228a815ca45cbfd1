import Verif.Model.Weights
import Verif.Lemmas.Fresnel
import Verif.Lemmas.Exits

/-! Real-number shadows of the weight bookkeeping, used by Verif/Props/Weights.lean. -/

namespace Verif.Weights
open Classical XF Root Fresnel
noncomputable section

theorem sel_fin {r c : ℕ} (a : Fin r → Fin c → ℝ) (ev : Fin c → ℕ) (j : Fin c) :
    sel (fun e j => (fin (a e j) : XF)) ev j = fin (sel a ev j) := by
  unfold sel
  split
  · rfl
  · rfl

/-- entries that are NaN or an angle in [0, π/2] -/
def AngleOrNaN (x : XF) : Prop := x = nan ∨ ∃ t, x = fin t ∧ 0 ≤ t ∧ t ≤ Real.pi / 2

theorem fresnelPassFrac_mixed {n : ℕ} (θ : Fin n → XF) {nb na : ℝ} (ni? : Option ℝ) (hb : 0 < nb)
    (hi : ∀ x, ni? = some x → 0 < x) (hθ : ∀ i, AngleOrNaN (θ i)) :
    fresnelPassFrac θ nb ni? na = .ok (fun i => onFin (passFrac nb ni? na) (θ i)) := by
  have hni : 0 < ni?.getD nb := by
    cases ni? with
    | none => simpa using hb
    | some x => simpa using hi x rfl
  have hpi := Real.pi_pos
  have hnerr1 : ¬ ∃ i, (fin (Real.pi / 2) : XF) < θ i := by
    rintro ⟨i, hlt⟩
    rcases hθ i with h | ⟨t, h, h0, h1⟩
    · rw [h] at hlt; exact not_lt_nan _ hlt
    · rw [h, fin_lt] at hlt; linarith
  have hin : ∀ i, nanToHalfPi (refraction θ (fin nb) (fin (ni?.getD nb)) i) =
      match θ i with | fin t => fin (thetaInside nb (ni?.getD nb) t) | _ => fin (Real.pi / 2) := by
    intro i
    unfold refraction
    rcases hθ i with h | ⟨t, h, h0, h1⟩
    · rw [h]; simp only [refraction1, XF.sin_nan, mul_nan]
      simp [XF.abs, XF.arcsin, nanToHalfPi]
    · rw [h]
      simp only
      unfold thetaInside
      rw [refraction1_fin hni.ne']
      split <;> rfl
  have hnerr2 : ¬ ∃ i, (fin (Real.pi / 2) : XF) < nanToHalfPi (refraction θ (fin nb) (fin (ni?.getD nb)) i) := by
    rintro ⟨i, hlt⟩
    rw [hin] at hlt
    rcases hθ i with h | ⟨t, h, h0, h1⟩
    · rw [h] at hlt; simp at hlt
    · rw [h] at hlt
      simp only [fin_lt] at hlt
      linarith [(thetaInside_mem hb hni h0 h1).2]
  unfold fresnelPassFrac
  simp only [fresnelTransmission, fresnelReflection, if_neg hnerr1, if_neg hnerr2, bind, Except.bind,
    pure, Except.pure]
  congr 1
  funext i
  rw [hin]
  rcases hθ i with h | ⟨t, h, h0, h1⟩
  · rw [h]
    simp [onFin]
  · have e := fresnelPassFrac_fin (n := 1) (na := na) (fun _ => t) ni? hb hi (fun _ => ⟨h0, h1⟩)
    have hin1 : nanToHalfPi (refraction (fun _ : Fin 1 => fin t) (fin nb) (fin (ni?.getD nb)) 0) =
      fin (thetaInside nb (ni?.getD nb) t) := by
      have := hin i
      unfold refraction at this ⊢
      rw [h] at this
      exact this
    unfold fresnelPassFrac at e
    have e1 : ¬ ∃ _ : Fin 1, (fin (Real.pi / 2) : XF) < fin t := by
      rintro ⟨_, hlt⟩; rw [fin_lt] at hlt; linarith
    have hin1' : ∀ k : Fin 1, nanToHalfPi (refraction (fun _ : Fin 1 => fin t) (fin nb) (fin (ni?.getD nb)) k) =
      fin (thetaInside nb (ni?.getD nb) t) := by
      intro k; rw [Subsingleton.elim k 0]; exact hin1
    have e2 : ¬ ∃ _ : Fin 1, (fin (Real.pi / 2) : XF) < fin (thetaInside nb (ni?.getD nb) t) := by
      rintro ⟨_, hlt⟩; rw [fin_lt] at hlt; linarith [(thetaInside_mem hb hni h0 h1).2]
    simp only [hin1', fresnelTransmission, fresnelReflection, if_neg e1, if_neg e2, bind, Except.bind,
      pure, Except.pure] at e
    injection e with e
    have := congrFun e 0
    rw [h]
    exact this

/-- pass fraction of a finite angle is a fraction -/
theorem passFrac_mem {nb na θ : ℝ} (ni? : Option ℝ) (hb : 0 < nb) (hi : ∀ x, ni? = some x → 0 < x)
    (h0 : 0 ≤ θ) (hθ : θ ≤ Real.pi / 2) : 0 ≤ passFrac nb ni? na θ ∧ passFrac nb ni? na θ ≤ 1 := by
  have hni : 0 < ni?.getD nb := by
    cases ni? with
    | none => simpa using hb
    | some x => simpa using hi x rfl
  rw [passFrac_eq]
  have ht := thetaInside_mem hb hni h0 hθ
  have e1 := rMean_frac (n2 := ni?.getD nb) hb h0 hθ
  have e2 := rMean_frac (n2 := na) hni ht.1 ht.2
  have e3 := rMean_frac (n2 := nb) hni ht.1 ht.2
  have he := EPS_pos
  set a := rMean nb (ni?.getD nb) θ
  set b := rMean (ni?.getD nb) na (thetaInside nb (ni?.getD nb) θ)
  set c := rMean (ni?.getD nb) nb (thetaInside nb (ni?.getD nb) θ)
  have h1 : b * c ≤ b := by nlinarith
  have hd : 0 < 1 - b * c + EPS := by linarith
  constructor
  · apply div_nonneg _ hd.le
    apply mul_nonneg <;> linarith
  · rw [div_le_one hd]
    nlinarith

/-- real shadow of one entry of `detect_correct` -/
def dcR (nb na th θ w : ℝ) : ℝ := if |nb / na * Real.sin θ| ≤ 1 ∧ Real.arcsin (nb / na * Real.sin θ) ≤ th then w else 0

theorem detectCorrect_fin {nt : ℕ} (θ w : Fin nt → ℝ) {nb na : ℝ} (ha : na ≠ 0) (th : ℝ) :
    detectCorrect (fun j => fin (θ j)) (fun j => fin (w j)) nb na th = fun j => fin (dcR nb na th (θ j) (w j)) := by
  funext j
  unfold detectCorrect dcR
  simp only
  rw [refraction1_fin ha]
  by_cases h : 1 < |nb / na * Real.sin (θ j)|
  · rw [if_pos h, if_neg (show ¬ (|nb / na * Real.sin (θ j)| ≤ 1 ∧ _) from fun h' => absurd h'.1 (not_le.mpr h)),
      if_pos isNaN_nan, if_pos (fin_lt_pinf th)]
  · rw [if_neg h]
    simp only [not_isNaN_fin, if_false, fin_lt]
    by_cases h2 : th < Real.arcsin (nb / na * Real.sin (θ j))
    · rw [if_pos h2, if_neg (by rintro ⟨_, h'⟩; linarith)]
    · rw [if_neg h2, if_pos ⟨not_lt.mp h, not_lt.mp h2⟩]

theorem dcR_nonneg {nb na th θ w : ℝ} (h : 0 ≤ w) : 0 ≤ dcR nb na th θ w := by
  unfold dcR; split <;> simp [h]
theorem dcR_le {nb na th θ w : ℝ} (h : 0 ≤ w) : dcR nb na th θ w ≤ w := by
  unfold dcR; split <;> simp [h]
theorem dcR_mono {nb na th th' θ w : ℝ} (h : 0 ≤ w) (hth : th ≤ th') : dcR nb na th θ w ≤ dcR nb na th' θ w := by
  unfold dcR
  split
  · next h1 => rw [if_pos ⟨h1.1, h1.2.trans hth⟩]
  · split <;> simp [h]

theorem detectCorrect_cases {nt : ℕ} (θ w : Fin nt → XF) (nb na th : ℝ) (j : Fin nt) :
    detectCorrect θ w nb na th j = fin 0 ∨ detectCorrect θ w nb na th j = w j := by
  unfold detectCorrect
  simp only
  by_cases h : (fin th : XF) < if (refraction1 (θ j) (fin nb) (fin na)).isNaN then pinf
      else refraction1 (θ j) (fin nb) (fin na)
  · rw [if_pos h]; exact Or.inl rfl
  · rw [if_neg h]; exact Or.inr rfl

/-! ### real shadow of a film call -/

/-- real inputs of the bookkeeping of one film call -/
structure RIn (nt : ℕ) where
  i : Fin nt → ℝ
  r : Fin nt → ℝ
  t : Fin nt → ℝ
  s : Fin nt → ℝ
  pr : Fin nt → ℝ
  pt : Fin nt → ℝ
  θr : Fin nt → ℝ
  θt : Fin nt → ℝ

namespace RIn
variable {nt : ℕ} (c : RIn nt)
def a (j : Fin nt) : ℝ := c.i j - c.r j - c.t j - c.s j
def Pr (j : Fin nt) : ℝ := c.r j * c.pr j
def Pt (j : Fin nt) : ℝ := c.t j * c.pt j
def known : ℝ := ∑ j, (c.a j + c.Pr j + c.Pt j)
def fr (j : Fin nt) : ℝ := c.r j - c.Pr j
def ft (j : Fin nt) : ℝ := c.t j - c.Pt j
def rf : ℝ := (∑ j, c.Pr j) / c.known
def tf : ℝ := (∑ j, c.Pt j) / c.known
def dr (ns nm th : ℝ) (j : Fin nt) : ℝ := dcR ns nm th (c.θr j) (c.Pr j)
def dt (ns nm th : ℝ) (j : Fin nt) : ℝ := dcR ns nm th (c.θt j) (c.Pt j)
def rdf (ns nm th : ℝ) : ℝ := Max.max (∑ j, c.dr ns nm th j) EPS / Max.max (∑ j, c.Pr j) EPS
def tdf (ns nm th : ℝ) : ℝ := Max.max (∑ j, c.dt ns nm th j) EPS / Max.max (∑ j, c.Pt j) EPS
def er (det : Bool) (j : Fin nt) : ℝ :=
  if det then c.fr j * c.rf else c.fr j * c.rf + c.ft j * c.tf + c.s j * (1 / 2)
def et (j : Fin nt) : ℝ := c.ft j * c.rf + c.fr j * c.tf + c.s j * (1 / 2)

/-- the assumptions under which the bounds hold -/
structure Good : Prop where
  i0 : ∀ j, 0 ≤ c.i j
  i1 : ∀ j, c.i j ≤ 1
  r0 : ∀ j, 0 ≤ c.r j
  t0 : ∀ j, 0 ≤ c.t j
  s0 : ∀ j, 0 ≤ c.s j
  a0 : ∀ j, 0 ≤ c.a j
  pr0 : ∀ j, 0 ≤ c.pr j
  pr1 : ∀ j, c.pr j ≤ 1
  pt0 : ∀ j, 0 ≤ c.pt j
  pt1 : ∀ j, c.pt j ≤ 1

variable {c}
theorem Good.Pr0 (g : c.Good) (j) : 0 ≤ c.Pr j := mul_nonneg (g.r0 j) (g.pr0 j)
theorem Good.Pt0 (g : c.Good) (j) : 0 ≤ c.Pt j := mul_nonneg (g.t0 j) (g.pt0 j)
theorem Good.fr0 (g : c.Good) (j) : 0 ≤ c.fr j := by
  unfold fr Pr; nlinarith [g.r0 j, g.pr1 j]
theorem Good.ft0 (g : c.Good) (j) : 0 ≤ c.ft j := by
  unfold ft Pt; nlinarith [g.t0 j, g.pt1 j]
theorem Good.known0 (g : c.Good) : 0 ≤ c.known :=
  Finset.sum_nonneg fun j _ => by linarith [g.a0 j, g.Pr0 j, g.Pt0 j]
theorem Good.known_eq (_g : c.Good) : c.known = (∑ j, c.a j) + (∑ j, c.Pr j) + ∑ j, c.Pt j := by
  unfold known; rw [Finset.sum_add_distrib, Finset.sum_add_distrib]
theorem Good.rf0 (g : c.Good) : 0 ≤ c.rf := div_nonneg (Finset.sum_nonneg fun j _ => g.Pr0 j) g.known0
theorem Good.tf0 (g : c.Good) : 0 ≤ c.tf := div_nonneg (Finset.sum_nonneg fun j _ => g.Pt0 j) g.known0
theorem Good.rf_add_tf (g : c.Good) (hk : c.known ≠ 0) : c.rf + c.tf = 1 - (∑ j, c.a j) / c.known := by
  unfold rf tf
  rw [← add_div, eq_sub_iff_add_eq, ← add_div, div_eq_one_iff_eq hk, g.known_eq]; ring
theorem Good.rf_tf_le (g : c.Good) : c.rf + c.tf ≤ 1 := by
  by_cases hk : c.known = 0
  · unfold rf tf; rw [hk, div_zero, div_zero]; norm_num
  · rw [g.rf_add_tf hk]
    have : 0 ≤ (∑ j, c.a j) / c.known := div_nonneg (Finset.sum_nonneg fun j _ => g.a0 j) g.known0
    linarith
theorem Good.dr0 (g : c.Good) (ns nm th : ℝ) (j) : 0 ≤ c.dr ns nm th j := dcR_nonneg (g.Pr0 j)
theorem Good.dt0 (g : c.Good) (ns nm th : ℝ) (j) : 0 ≤ c.dt ns nm th j := dcR_nonneg (g.Pt0 j)
theorem Good.dr_le (g : c.Good) (ns nm th : ℝ) (j) : c.dr ns nm th j ≤ c.Pr j := dcR_le (g.Pr0 j)
theorem Good.dt_le (g : c.Good) (ns nm th : ℝ) (j) : c.dt ns nm th j ≤ c.Pt j := dcR_le (g.Pt0 j)
theorem maxEPS_pos (x : ℝ) : 0 < Max.max x EPS := lt_of_lt_of_le EPS_pos (le_max_right _ _)
theorem Good.rdf0 (_g : c.Good) (ns nm th : ℝ) : 0 ≤ c.rdf ns nm th :=
  div_nonneg (maxEPS_pos _).le (maxEPS_pos _).le
theorem Good.tdf0 (_g : c.Good) (ns nm th : ℝ) : 0 ≤ c.tdf ns nm th :=
  div_nonneg (maxEPS_pos _).le (maxEPS_pos _).le
theorem Good.rdf1 (g : c.Good) (ns nm th : ℝ) : c.rdf ns nm th ≤ 1 := by
  unfold rdf; rw [div_le_one (maxEPS_pos _)]
  exact max_le_max (Finset.sum_le_sum fun j _ => g.dr_le ns nm th j) le_rfl
theorem Good.tdf1 (g : c.Good) (ns nm th : ℝ) : c.tdf ns nm th ≤ 1 := by
  unfold tdf; rw [div_le_one (maxEPS_pos _)]
  exact max_le_max (Finset.sum_le_sum fun j _ => g.dt_le ns nm th j) le_rfl
theorem Good.er0 (g : c.Good) (det) (j) : 0 ≤ c.er det j := by
  unfold er
  have h1 := mul_nonneg (g.fr0 j) g.rf0
  have h2 := mul_nonneg (g.ft0 j) g.tf0
  have h3 := g.s0 j
  split <;> linarith
theorem Good.et0 (g : c.Good) (j) : 0 ≤ c.et j := by
  unfold et
  have h1 := mul_nonneg (g.ft0 j) g.rf0
  have h2 := mul_nonneg (g.fr0 j) g.tf0
  have h3 := g.s0 j
  linarith
theorem Good.er_le (g : c.Good) (det) (j) : c.er det j ≤ c.er false j := by
  unfold er
  have h1 := mul_nonneg (g.fr0 j) g.rf0
  have h2 := mul_nonneg (g.ft0 j) g.tf0
  have h3 := g.s0 j
  cases det
  · simp
  · simp; linarith
theorem Good.er_et (_g : c.Good) (j) : c.er false j + c.et j = (c.fr j + c.ft j) * (c.rf + c.tf) + c.s j := by
  unfold er et
  simp
  ring
theorem Good.er_et_le (g : c.Good) (j) : c.er false j + c.et j ≤ c.fr j + c.ft j + c.s j := by
  rw [g.er_et]
  have := g.rf_tf_le
  nlinarith [g.fr0 j, g.ft0 j]
end RIn

/-- reflectance of the shadow; `ir` is the reflection of the incident light that is detected -/
def filmR {nt : ℕ} (c : RIn nt) (ns nm th : ℝ) (det : Bool) (ir : Fin nt → ℝ) : ℝ :=
  ∑ j, (c.dr ns nm th j + c.er det j * c.rdf ns nm th + (if det then 0 else ir j)) / nt
/-- transmittance of the shadow -/
def filmT {nt : ℕ} (c : RIn nt) (ns nm th : ℝ) : ℝ :=
  ∑ j, (c.dt ns nm th j + c.et j * c.tdf ns nm th) / nt

theorem filmR_nonneg {nt : ℕ} {c : RIn nt} (g : c.Good) (ns nm th : ℝ) (det : Bool) {ir : Fin nt → ℝ}
    (h : ∀ j, 0 ≤ ir j) : 0 ≤ filmR c ns nm th det ir := by
  apply Finset.sum_nonneg
  intro j _
  apply div_nonneg _ (Nat.cast_nonneg _)
  have := mul_nonneg (g.er0 det j) (g.rdf0 ns nm th)
  have := g.dr0 ns nm th j
  have := h j
  split <;> linarith

theorem filmT_nonneg {nt : ℕ} {c : RIn nt} (g : c.Good) (ns nm th : ℝ) : 0 ≤ filmT c ns nm th := by
  apply Finset.sum_nonneg
  intro j _
  apply div_nonneg _ (Nat.cast_nonneg _)
  have := mul_nonneg (g.et0 j) (g.tdf0 ns nm th)
  have := g.dt0 ns nm th j
  linarith

theorem filmRT_le {nt : ℕ} (hnt : 0 < nt) {c : RIn nt} (g : c.Good) (ns nm th : ℝ) (det : Bool) {ir : Fin nt → ℝ}
    (h : ∀ j, ir j ≤ 1 - c.i j) : filmR c ns nm th det ir + filmT c ns nm th ≤ 1 := by
  have hn : (0:ℝ) < nt := by exact_mod_cast hnt
  unfold filmR filmT
  rw [← Finset.sum_add_distrib]
  have : ∑ _j : Fin nt, (1:ℝ) / nt = 1 := by
    rw [Finset.sum_const, Finset.card_univ, Fintype.card_fin, nsmul_eq_mul]; field_simp
  rw [← this]
  apply Finset.sum_le_sum
  intro j _
  rw [← add_div]
  apply div_le_div_of_nonneg_right _ hn.le
  have e1 : c.er det j * c.rdf ns nm th ≤ c.er false j := by
    calc c.er det j * c.rdf ns nm th ≤ c.er det j * 1 := mul_le_mul_of_nonneg_left (g.rdf1 ns nm th) (g.er0 det j)
      _ ≤ _ := by rw [mul_one]; exact g.er_le det j
  have e2 : c.et j * c.tdf ns nm th ≤ c.et j := by
    nlinarith [g.et0 j, g.tdf1 ns nm th]
  have e3 := g.er_et_le j
  have e4 : (if det then (0:ℝ) else ir j) ≤ 1 - c.i j := by
    split
    · linarith [g.i1 j]
    · exact h j
  have e5 := g.dr_le ns nm th j
  have e6 := g.dt_le ns nm th j
  have e7 := g.a0 j
  unfold RIn.fr RIn.ft at e3
  unfold RIn.a at e7
  linarith

/-- `ir` is the detected reflection of the incident light -/
def IncReflIs {nt : ℕ} (o : Optics) (g : Geometry nt) (kz0_refl : Option (Fin nt → ℝ)) (i ir : Fin nt → ℝ) : Prop :=
  ∀ j, (match kz0_refl with
      | some k => fun j => if XF.arccos (fin (k j)) < fin (Real.pi - o.detection_angle) then fin 0 else fin (1 - i j)
      | none => detectCorrect g.thIncDet (fun j => fin (1 - i j)) o.n_medium o.n_medium o.detection_angle) j =
        (fin (ir j) : XF)

theorem incReflIs_exists {nt : ℕ} (o : Optics) (g : Geometry nt) (kz0_refl : Option (Fin nt → ℝ)) (i : Fin nt → ℝ)
    (hi : ∀ j, i j ≤ 1) : ∃ ir, IncReflIs o g kz0_refl i ir ∧ (∀ j, 0 ≤ ir j) ∧ ∀ j, ir j ≤ 1 - i j := by
  have key : ∀ j, ∃ x, (match kz0_refl with
      | some k => fun j => if XF.arccos (fin (k j)) < fin (Real.pi - o.detection_angle) then fin 0 else fin (1 - i j)
      | none => detectCorrect g.thIncDet (fun j => fin (1 - i j)) o.n_medium o.n_medium o.detection_angle) j =
        (fin x : XF) ∧ 0 ≤ x ∧ x ≤ 1 - i j := by
    intro j
    have hij := hi j
    cases kz0_refl with
    | none =>
      rcases detectCorrect_cases g.thIncDet (fun j => fin (1 - i j)) o.n_medium o.n_medium o.detection_angle j with h | h
      · exact ⟨0, h, le_rfl, by linarith⟩
      · exact ⟨1 - i j, h, by linarith, le_rfl⟩
    | some k =>
      by_cases h : XF.arccos (fin (k j)) < fin (Real.pi - o.detection_angle)
      · exact ⟨0, if_pos h, le_rfl, by linarith⟩
      · exact ⟨1 - i j, if_neg h, by linarith, le_rfl⟩
  choose ir h using key
  exact ⟨ir, fun j => (h j).1, fun j => (h j).2.1, fun j => (h j).2.2⟩

/-- the shadow computed from the inputs of a call -/
def shadow {nev nt : ℕ} (o : Optics) (g : Geometry nt) (ω : Fin nev → Fin nt → ℝ) (i θr θt : Fin nt → ℝ) : RIn nt :=
  { i := i, r := fun j => i j * sel ω g.ri j, t := fun j => i j * sel ω g.ti j,
    s := fun j => i j * sel ω g.si j, pr := fun j => passFrac o.n_tir o.n_front o.n_medium (θr j),
    pt := fun j => passFrac o.n_tir o.n_back o.n_medium (θt j), θr := θr, θt := θt }

/-- a level whose values are all finite, with real shadow `c` -/
structure LevelFin {nt : ℕ} (l : Level nt) (c : RIn nt) (ns nm th : ℝ) (ft : Bool) (ir : Fin nt → ℝ) : Prop where
  inc : l.inc = fun j => fin (c.i j)
  stuck : l.out.stuck = fun j => fin (c.s j)
  reflFresnel : l.exit.reflFresnel = fun j => fin (c.fr j)
  transFresnel : l.exit.transFresnel = fun j => fin (c.ft j)
  refl : l.det.refl = fun j => fin (c.dr ns nm th j)
  trans : l.det.trans = fun j => fin (c.dt ns nm th j)
  incRefl : l.det.incRefl = fun j => fin (ir j)
  rdf : l.det.reflDetFrac = fin (c.rdf ns nm th)
  tdf : l.det.transDetFrac = fin (c.tdf ns nm th)
  rf : l.exit.reflFrac = fin (∑ j, c.Pr j) / (if ft then fin nt else fin c.known)
  tf : l.exit.transFrac = fin (∑ j, c.Pt j) / (if ft then fin nt else fin c.known)
  total : l.totalStuck = fin (∑ j, (c.fr j + c.ft j + c.s j)) / fin nt

theorem level_fin {nev nt : ℕ} (o : Optics) (g : Geometry nt) (kz0_refl : Option (Fin nt → ℝ))
    (ft : Bool) (ω : Fin nev → Fin nt → ℝ) (i θr θt : Fin nt → ℝ) (ir : Fin nt → ℝ)
    (htir : 0 < o.n_tir) (hm : 0 < o.n_medium)
    (hf : ∀ x, o.n_front = some x → 0 < x) (hb : ∀ x, o.n_back = some x → 0 < x)
    (hinc : incPassFrac ft g.thInc o.n_medium o.n_front o.n_tir = .ok (fun j => fin (i j)))
    (hr : g.thRefl = fun j => fin (θr j)) (ht : g.thTrans = fun j => fin (θt j))
    (hr' : ∀ j, 0 ≤ θr j ∧ θr j ≤ Real.pi / 2) (ht' : ∀ j, 0 ≤ θt j ∧ θt j ≤ Real.pi / 2)
    (hir : IncReflIs o g kz0_refl i ir) :
    ∃ l, level o g kz0_refl ft (fun e j => fin (ω e j)) = .ok l ∧
      LevelFin l (shadow o g ω i θr θt) o.n_sample o.n_medium o.detection_angle ft ir := by
  have pR := fresnelPassFrac_fin (na := o.n_medium) θr o.n_front htir hf hr'
  have pT := fresnelPassFrac_fin (na := o.n_medium) θt o.n_back htir hb ht'
  unfold level
  rw [hinc]
  simp only [bind, Except.bind, pure, Except.pure, calcOutcomeWeights, fresnelCorrectExit, hr, ht, pR, pT, sel_fin,
    fin_mul, fin_sub, fin_add, sum_fin, detectCorrectedTraj]
  simp only [detectCorrect_fin _ _ hm.ne', sum_fin, npMax_fin, fin_div _ (RIn.maxEPS_pos _).ne']
  refine ⟨_, rfl, ?_⟩
  refine ⟨rfl, rfl, rfl, rfl, rfl, rfl, ?_, rfl, rfl, ?_, ?_, rfl⟩
  · funext j
    have := hir j
    cases kz0_refl <;> exact this
  · cases ft <;> rfl
  · cases ft <;> rfl

theorem distribute_film_fin {nt : ℕ} (hnt : 0 < nt) {l : Level nt} {c : RIn nt} {ns nm th : ℝ} {ir : Fin nt → ℝ}
    (h : LevelFin l c ns nm th false ir) (hk : c.known ≠ 0) (det : Bool) :
    let rt := distribute l.exit l.det l.out.stuck .film det
    (∀ j, rt.reflPer j = fin ((c.dr ns nm th j + c.er det j * c.rdf ns nm th + (if det then 0 else ir j)) / nt)) ∧
    (∀ j, rt.transPer j = fin ((c.dt ns nm th j + c.et j * c.tdf ns nm th) / nt)) ∧
    rt.R = fin (filmR c ns nm th det ir) ∧ rt.T = fin (filmT c ns nm th) := by
  intro rt
  have hn : (nt : ℝ) ≠ 0 := by exact_mod_cast hnt.ne'
  have h1 : ∀ j, rt.reflPer j =
      fin ((c.dr ns nm th j + c.er det j * c.rdf ns nm th + (if det then 0 else ir j)) / nt) := by
    intro j
    show (distribute l.exit l.det l.out.stuck .film det).reflPer j = _
    have hrf := h.rf
    have htf := h.tf
    simp only [Bool.false_eq_true, if_false, fin_div _ hk] at hrf htf
    simp only [distribute, h.reflFresnel, h.transFresnel, h.stuck, h.refl, h.incRefl, h.rdf, hrf, htf,
      fin_mul, fin_add]
    rw [← fin_div _ hn]
    congr 1
    cases det
    · simp only [Bool.false_eq_true, if_false, fin_mul, fin_add]; rfl
    · simp only [if_true, fin_mul, fin_add]; rfl
  have h2 : ∀ j, rt.transPer j = fin ((c.dt ns nm th j + c.et j * c.tdf ns nm th) / nt) := by
    intro j
    show (distribute l.exit l.det l.out.stuck .film det).transPer j = _
    have hrf := h.rf
    have htf := h.tf
    simp only [Bool.false_eq_true, if_false, fin_div _ hk] at hrf htf
    simp only [distribute, h.reflFresnel, h.transFresnel, h.stuck, h.trans, h.tdf, hrf, htf,
      fin_mul, fin_add]
    rw [← fin_div _ hn]
    rfl
  refine ⟨h1, h2, ?_, ?_⟩
  · show ∑ j, rt.reflPer j = _
    rw [Finset.sum_congr rfl fun j _ => h1 j, sum_fin]; rfl
  · show ∑ j, rt.transPer j = _
    rw [Finset.sum_congr rfl fun j _ => h2 j, sum_fin]; rfl

theorem shadow_good {nev nt : ℕ} {o : Optics} {g : Geometry nt} {ω : Fin nev → Fin nt → ℝ} {i θr θt : Fin nt → ℝ}
    (htir : 0 < o.n_tir) (hf : ∀ x, o.n_front = some x → 0 < x) (hb : ∀ x, o.n_back = some x → 0 < x)
    (hr' : ∀ j, 0 ≤ θr j ∧ θr j ≤ Real.pi / 2) (ht' : ∀ j, 0 ≤ θt j ∧ θt j ≤ Real.pi / 2)
    (hi : ∀ j, 0 ≤ i j ∧ i j ≤ 1) (hω : ∀ e j, 0 ≤ ω e j ∧ ω e j ≤ 1)
    (hex : ∀ j, (g.ti j = 0 ∧ g.si j = 0) ∨ (g.ri j = 0 ∧ g.si j = 0) ∨ (g.ri j = 0 ∧ g.ti j = 0)) :
    (shadow o g ω i θr θt).Good := by
  have hsel : ∀ (idx : Fin nt → ℕ) j, 0 ≤ sel ω idx j ∧ sel ω idx j ≤ 1 := by
    intro idx j
    unfold sel
    split
    · exact hω _ _
    · norm_num
  have h0 : ∀ (idx : Fin nt → ℕ) j, 0 ≤ i j * sel ω idx j := fun idx j => mul_nonneg (hi j).1 (hsel idx j).1
  refine ⟨fun j => (hi j).1, fun j => (hi j).2, h0 _, h0 _, h0 _, ?_,
    fun j => (passFrac_mem _ htir hf (hr' j).1 (hr' j).2).1, fun j => (passFrac_mem _ htir hf (hr' j).1 (hr' j).2).2,
    fun j => (passFrac_mem _ htir hb (ht' j).1 (ht' j).2).1, fun j => (passFrac_mem _ htir hb (ht' j).1 (ht' j).2).2⟩
  intro j
  show 0 ≤ i j - i j * sel ω g.ri j - i j * sel ω g.ti j - i j * sel ω g.si j
  have hz : ∀ (idx : Fin nt → ℕ), idx j = 0 → sel ω idx j = 0 := fun idx h => sel_zero ω idx j h
  have hij := hi j
  rcases hex j with ⟨h1, h2⟩ | ⟨h1, h2⟩ | ⟨h1, h2⟩ <;> rw [hz _ h1, hz _ h2]
  · nlinarith [hsel g.ri j]
  · nlinarith [hsel g.ti j]
  · nlinarith [hsel g.si j]

/-! ### films -/

theorem angleFilm_fin {k : ℝ} (h : |k| ≤ 1) : angleFilm (fin k) = fin (Real.arccos |k|) := by
  unfold angleFilm
  rw [XF.abs_fin, XF.arccos_of_mem (by linarith [abs_nonneg k]) h]

theorem arccos_abs_mem (k : ℝ) : 0 ≤ Real.arccos |k| ∧ Real.arccos |k| ≤ Real.pi / 2 :=
  ⟨Real.arccos_nonneg _, Real.arccos_le_pi_div_two.mpr (abs_nonneg k)⟩

theorem sel_abs_le {r c : ℕ} {a : Fin r → Fin c → ℝ} (ev : Fin c → ℕ) (h : ∀ e j, |a e j| ≤ 1) (j : Fin c) :
    |sel a ev j| ≤ 1 := by
  unfold sel
  split
  · exact h _ _
  · simp

theorem getAnglesFilm_fin {r c : ℕ} {a : Fin r → Fin c → ℝ} (ev : Fin c → ℕ) (h : ∀ e j, |a e j| ≤ 1) :
    getAnglesFilm a ev = fun j => fin (Real.arccos |sel a ev j|) := by
  funext j
  exact angleFilm_fin (sel_abs_le ev h j)

theorem incAngle_mixed {nt : ℕ} {nm ns : ℝ} (hm : nm ≠ 0) (kz0 : Fin nt → ℝ) (h0 : ∀ j, |kz0 j| ≤ 1)
    (kr : Option (Fin nt → ℝ)) (hr : ∀ k, kr = some k → ∀ j, |k j| ≤ 1) (j : Fin nt) :
    AngleOrNaN (incAngleFilm nm ns kz0 kr j) := by
  unfold incAngleFilm
  cases kr with
  | some k =>
    simp only
    rw [angleFilm_fin (hr k rfl j)]
    exact Or.inr ⟨_, rfl, arccos_abs_mem _⟩
  | none =>
    simp only
    rw [angleFilm_fin (h0 j), refraction1_fin hm]
    split
    · left; simp [angleFilm, XF.abs, XF.arccos]
    · rw [XF.cos_fin, angleFilm_fin (Real.abs_cos_le_one _)]
      exact Or.inr ⟨_, rfl, arccos_abs_mem _⟩

/-- hypotheses on the physical inputs of a film call -/
structure FilmOK {nev nt : ℕ} (o : Optics) (kz : Fin (nev + 1) → Fin nt → ℝ) (w : Fin (nev + 1) → Fin nt → ℝ)
    (kz0_rot : Option (Fin nt → ℝ)) (filter : (Fin nt → ℕ) → Fin nt → ℕ) : Prop where
  nt_pos : 0 < nt
  medium : 0 < o.n_medium
  tir : 0 < o.n_tir
  front : ∀ x, o.n_front = some x → 0 < x
  back : ∀ x, o.n_back = some x → 0 < x
  kz1 : ∀ e j, |kz e j| ≤ 1
  w01 : ∀ e j, 0 ≤ w e j ∧ w e j ≤ 1
  rot1 : ∀ k, kz0_rot = some k → ∀ j, |k j| ≤ 1
  filt : ∀ f j, filter f j = f j ∨ filter f j = 0

/-- the detected reflection of incident light as a function of the detection angle -/
def irOf {nt : ℕ} (nm : ℝ) (θd i : Fin nt → ℝ) (kz0_refl : Option (Fin nt → ℝ)) (th : ℝ) (j : Fin nt) : ℝ :=
  match kz0_refl with
  | some k => if XF.arccos (fin (k j)) < fin (Real.pi - th) then 0 else 1 - i j
  | none => dcR nm nm th (θd j) (1 - i j)

theorem irOf_mem {nt : ℕ} {nm : ℝ} {θd i : Fin nt → ℝ} {kz0_refl : Option (Fin nt → ℝ)} {th : ℝ} {j : Fin nt}
    (hi : i j ≤ 1) : 0 ≤ irOf nm θd i kz0_refl th j ∧ irOf nm θd i kz0_refl th j ≤ 1 - i j := by
  unfold irOf
  cases kz0_refl with
  | none => exact ⟨dcR_nonneg (by linarith), dcR_le (by linarith)⟩
  | some k => simp only; split <;> constructor <;> linarith

theorem irOf_mono {nt : ℕ} {nm : ℝ} {θd i : Fin nt → ℝ} {kz0_refl : Option (Fin nt → ℝ)} {th th' : ℝ} {j : Fin nt}
    (hi : i j ≤ 1) (h : th ≤ th') : irOf nm θd i kz0_refl th j ≤ irOf nm θd i kz0_refl th' j := by
  unfold irOf
  cases kz0_refl with
  | none => exact dcR_mono (by linarith) h
  | some k =>
    simp only
    by_cases h1 : XF.arccos (fin (k j)) < fin (Real.pi - th)
    · rw [if_pos h1]; split <;> linarith
    · rw [if_neg h1, if_neg]
      intro h2
      apply h1
      cases hx : XF.arccos (fin (k j)) with
      | fin a => rw [hx, fin_lt] at h2; rw [fin_lt]; linarith
      | pinf => rw [hx] at h2; exact absurd h2 (not_pinf_lt _)
      | ninf => exact trivial
      | nan => rw [hx] at h2; exact absurd h2 (not_nan_lt _)

theorem incRefl_eq_irOf {nt : ℕ} {o : Optics} (hm : 0 < o.n_medium) {g : Geometry nt} {θd i : Fin nt → ℝ}
    {kz0_refl : Option (Fin nt → ℝ)} (hd : g.thIncDet = fun j => fin (θd j)) :
    IncReflIs o g kz0_refl i (irOf o.n_medium θd i kz0_refl o.detection_angle) := by
  intro j
  unfold irOf
  cases kz0_refl with
  | none =>
    simp only
    rw [hd, detectCorrect_fin _ _ hm.ne']
  | some k =>
    simp only
    split <;> rfl

/-- exclusivity of the outcomes of a film call, also after the goniometer filter -/
theorem film_exclusive {nev nt : ℕ} (o : Optics) (thickness z_low : ℝ) (z : Fin (nev + 2) → Fin nt → ℝ)
    (kz : Fin (nev + 1) → Fin nt → ℝ) (kz0_rot : Option (Fin nt → ℝ)) (filter : (Fin nt → ℕ) → Fin nt → ℕ)
    (hfilt : ∀ f j, filter f j = f j ∨ filter f j = 0) (j : Fin nt) :
    let g := filmGeometry o thickness z_low z kz kz0_rot filter
    (g.ti j = 0 ∧ g.si j = 0) ∨ (g.ri j = 0 ∧ g.si j = 0) ∨ (g.ri j = 0 ∧ g.ti j = 0) := by
  intro g
  set X := Exits.findValidExitsFilm o.n_tir o.n_medium thickness z_low z kz with hX
  have hri : g.ri j = filter (Exits.reflIndices X.neg X.pos) j := rfl
  have hti : g.ti j = Exits.transIndices X.neg X.pos j := rfl
  have hsi : g.si j = Exits.stuckIndices X.neg X.pos j := rfl
  rw [hri, hti, hsi]
  have hf := hfilt (Exits.reflIndices X.neg X.pos) j
  rw [Exits.trans_cases, Exits.stuck_cases]
  have hrc := Exits.refl_cases X.neg X.pos j
  by_cases h1 : Exits.firstEvent X.neg j = 0 <;> by_cases h2 : Exits.firstEvent X.pos j = 0
  · right; right; simp [h1, h2] at hrc ⊢; omega
  · right; left; simp [h1, h2] at hrc ⊢; omega
  · left; simp [h1, h2]
  · by_cases h3 : Exits.firstEvent X.neg j < Exits.firstEvent X.pos j
    · left; simp [h1, h3]
    · right; left; simp [h1, h2, h3] at hrc ⊢; omega

/-- all-NaN results: an undefined incident fraction -/
theorem calc_nan_of_inc {nev nt : ℕ} (o : Optics) (g : Geometry nt) (kz0_refl : Option (Fin nt → ℝ)) (det : Bool)
    (w : Fin nev → Fin nt → XF) (inc pR pT : Fin nt → XF)
    (hinc : incPassFrac false g.thInc o.n_medium o.n_front o.n_tir = .ok inc)
    (hR : fresnelPassFrac g.thRefl o.n_tir o.n_front o.n_medium = .ok pR)
    (hT : fresnelPassFrac g.thTrans o.n_tir o.n_back o.n_medium = .ok pT)
    (j : Fin nt) (hj : inc j = nan) :
    ∃ rt, calcReflTrans o .film g kz0_refl det w = .ok rt ∧ rt.R = nan ∧ rt.T = nan := by
  unfold calcReflTrans level
  rw [hinc]
  simp only [bind, Except.bind, pure, Except.pure, fresnelCorrectExit, hR, hT]
  refine ⟨_, rfl, ?_, ?_⟩
  · simp only [distribute]
    apply sum_nan _ _ j (Finset.mem_univ j)
    cases det <;> simp [calcOutcomeWeights, hj]
  · simp only [distribute]
    apply sum_nan _ _ j (Finset.mem_univ j)
    simp [calcOutcomeWeights, hj]

/-- all-NaN results: nothing is known about any trajectory -/
theorem distribute_film_nan {nt : ℕ} (hnt : 0 < nt) {l : Level nt} {c : RIn nt} {ns nm th : ℝ} {ir : Fin nt → ℝ}
    (h : LevelFin l c ns nm th false ir) (hg : c.Good) (hk : c.known = 0) (det : Bool) :
    let rt := distribute l.exit l.det l.out.stuck .film det
    rt.R = nan ∧ rt.T = nan := by
  have hP : (∑ j, c.Pr j) = 0 ∧ (∑ j, c.Pt j) = 0 := by
    have h1 := hg.known_eq
    have h2 : 0 ≤ ∑ j, c.a j := Finset.sum_nonneg fun j _ => hg.a0 j
    have h3 : 0 ≤ ∑ j, c.Pr j := Finset.sum_nonneg fun j _ => hg.Pr0 j
    have h4 : 0 ≤ ∑ j, c.Pt j := Finset.sum_nonneg fun j _ => hg.Pt0 j
    constructor <;> linarith
  have hdiv : (fin 0 : XF) / fin 0 = nan := by rw [fin_div_def]; simp [infOfSign]
  have hrf : l.exit.reflFrac = nan := by rw [h.rf, hk, hP.1]; simpa using hdiv
  have htf : l.exit.transFrac = nan := by rw [h.tf, hk, hP.2]; simpa using hdiv
  refine ⟨?_, ?_⟩
  · simp only [distribute]
    apply sum_nan _ _ ⟨0, hnt⟩ (Finset.mem_univ _)
    cases det <;> simp [hrf, htf]
  · simp only [distribute]
    apply sum_nan _ _ ⟨0, hnt⟩ (Finset.mem_univ _)
    simp [hrf, htf]

/-- The incident pass fraction of a film call: NaN or a fraction, for each trajectory. -/
theorem film_inc {nev nt : ℕ} {o : Optics} {kz : Fin (nev + 1) → Fin nt → ℝ} {w : Fin (nev + 1) → Fin nt → ℝ}
    {kz0_rot : Option (Fin nt → ℝ)} {filter : (Fin nt → ℕ) → Fin nt → ℕ} (H : FilmOK o kz w kz0_rot filter) :
    incPassFrac false (incAngleFilm o.n_medium o.n_tir (kz 0) kz0_rot) o.n_medium o.n_front o.n_tir =
      .ok (fun j => onFin (passFrac o.n_medium o.n_front o.n_tir) (incAngleFilm o.n_medium o.n_tir (kz 0) kz0_rot j)) := by
  unfold incPassFrac
  simp only [Bool.false_eq_true, if_false]
  exact fresnelPassFrac_mixed _ _ H.medium H.front
    (incAngle_mixed H.medium.ne' _ (fun j => H.kz1 0 j) _ H.rot1)

/-- The shadow of a film call (independent of the detection angle). -/
def filmShadow {nev nt : ℕ} (o : Optics) (thickness z_low : ℝ) (z : Fin (nev + 2) → Fin nt → ℝ)
    (kz : Fin (nev + 1) → Fin nt → ℝ) (w : Fin (nev + 1) → Fin nt → ℝ) (kz0_rot : Option (Fin nt → ℝ))
    (filter : (Fin nt → ℕ) → Fin nt → ℕ) (i : Fin nt → ℝ) : RIn nt :=
  let g := filmGeometry o thickness z_low z kz kz0_rot filter
  shadow o g w i (fun j => Real.arccos |sel kz g.ri j|) (fun j => Real.arccos |sel kz g.ti j|)

theorem filmShadow_good {nev nt : ℕ} {o : Optics} {thickness z_low : ℝ} {z : Fin (nev + 2) → Fin nt → ℝ}
    {kz : Fin (nev + 1) → Fin nt → ℝ} {w : Fin (nev + 1) → Fin nt → ℝ}
    {kz0_rot : Option (Fin nt → ℝ)} {filter : (Fin nt → ℕ) → Fin nt → ℕ} (H : FilmOK o kz w kz0_rot filter)
    {i : Fin nt → ℝ} (hi : ∀ j, 0 ≤ i j ∧ i j ≤ 1) :
    (filmShadow o thickness z_low z kz w kz0_rot filter i).Good :=
  shadow_good H.tir H.front H.back (fun _ => arccos_abs_mem _) (fun _ => arccos_abs_mem _) hi H.w01
    (film_exclusive o thickness z_low z kz kz0_rot filter H.filt)

/-- The complete case analysis of a film call without the roughness argument check. -/
theorem film_cases {nev nt : ℕ} {o : Optics} (thickness z_low : ℝ) (z : Fin (nev + 2) → Fin nt → ℝ)
    {kz : Fin (nev + 1) → Fin nt → ℝ} {w : Fin (nev + 1) → Fin nt → ℝ}
    {kz0_rot : Option (Fin nt → ℝ)} (kz0_refl : Option (Fin nt → ℝ)) {filter : (Fin nt → ℕ) → Fin nt → ℕ}
    (H : FilmOK o kz w kz0_rot filter) (det : Bool) :
    let call := calcReflTrans o .film (filmGeometry o thickness z_low z kz kz0_rot filter) kz0_refl det
      (fun e j => fin (w e j))
    ((∃ j, incAngleFilm o.n_medium o.n_tir (kz 0) kz0_rot j = nan) ∧
      ∃ rt, call = .ok rt ∧ rt.R = nan ∧ rt.T = nan) ∨
    (∃ i : Fin nt → ℝ, (∀ j, 0 ≤ i j ∧ i j ≤ 1) ∧
      (∀ j, ∃ t, incAngleFilm o.n_medium o.n_tir (kz 0) kz0_rot j = fin t ∧ 0 ≤ t ∧ t ≤ Real.pi / 2 ∧
        i j = passFrac o.n_medium o.n_front o.n_tir t) ∧
      let c := filmShadow o thickness z_low z kz w kz0_rot filter i
      c.Good ∧
      ((c.known = 0 ∧ ∃ rt, call = .ok rt ∧ rt.R = nan ∧ rt.T = nan) ∨
       (c.known ≠ 0 ∧
        let ir := irOf o.n_medium (fun j => Real.arccos |kz 0 j|) i kz0_refl o.detection_angle
        ∃ rt, call = .ok rt ∧ rt.R = fin (filmR c o.n_sample o.n_medium o.detection_angle det ir) ∧
          rt.T = fin (filmT c o.n_sample o.n_medium o.detection_angle) ∧
          (∀ j, rt.reflPer j = fin ((c.dr o.n_sample o.n_medium o.detection_angle j +
            c.er det j * c.rdf o.n_sample o.n_medium o.detection_angle + (if det then 0 else ir j)) / nt)) ∧
          (∀ j, rt.transPer j = fin ((c.dt o.n_sample o.n_medium o.detection_angle j +
            c.et j * c.tdf o.n_sample o.n_medium o.detection_angle) / nt))))) := by
  intro call
  set g := filmGeometry o thickness z_low z kz kz0_rot filter with hg
  have hinc := film_inc H
  have hr : g.thRefl = fun j => fin (Real.arccos |sel kz g.ri j|) := getAnglesFilm_fin _ H.kz1
  have ht : g.thTrans = fun j => fin (Real.arccos |sel kz g.ti j|) := getAnglesFilm_fin _ H.kz1
  have hd : g.thIncDet = fun j => fin (Real.arccos |kz 0 j|) := by
    funext j; exact angleFilm_fin (H.kz1 0 j)
  have hmix := incAngle_mixed (ns := o.n_tir) H.medium.ne' _ (fun j => H.kz1 0 j) _ H.rot1
  by_cases hn : ∃ j, incAngleFilm o.n_medium o.n_tir (kz 0) kz0_rot j = nan
  · left
    refine ⟨hn, ?_⟩
    obtain ⟨j, hj⟩ := hn
    refine calc_nan_of_inc o g kz0_refl det _ _ _ _ hinc
      (by rw [hr]; exact fresnelPassFrac_fin _ _ H.tir H.front (fun _ => arccos_abs_mem _))
      (by rw [ht]; exact fresnelPassFrac_fin _ _ H.tir H.back (fun _ => arccos_abs_mem _)) j ?_
    simp only [hj, onFin]
  · right
    push Not at hn
    have hfin : ∀ j, ∃ t, incAngleFilm o.n_medium o.n_tir (kz 0) kz0_rot j = fin t ∧ 0 ≤ t ∧ t ≤ Real.pi / 2 :=
      fun j => (hmix j).resolve_left (hn j)
    choose θ hθ hθ0 hθ1 using hfin
    have hi : ∀ j, 0 ≤ passFrac o.n_medium o.n_front o.n_tir (θ j) ∧ passFrac o.n_medium o.n_front o.n_tir (θ j) ≤ 1 :=
      fun j => passFrac_mem _ H.medium H.front (hθ0 j) (hθ1 j)
    refine ⟨fun j => passFrac o.n_medium o.n_front o.n_tir (θ j), hi, fun j => ⟨θ j, hθ j, hθ0 j, hθ1 j, rfl⟩, ?_⟩
    intro c
    have hgood : c.Good := filmShadow_good H hi
    refine ⟨hgood, ?_⟩
    have hinc' : incPassFrac false g.thInc o.n_medium o.n_front o.n_tir =
        .ok (fun j => fin (passFrac o.n_medium o.n_front o.n_tir (θ j))) := by
      refine hinc.trans ?_
      congr 1
      funext j
      rw [hθ j]; rfl
    obtain ⟨l, hl, hL⟩ := level_fin o g kz0_refl false w _ _ _ _ H.tir H.medium H.front H.back hinc' hr ht
      (fun _ => arccos_abs_mem _) (fun _ => arccos_abs_mem _) (incRefl_eq_irOf H.medium hd)
    have hcall : call = .ok (distribute l.exit l.det l.out.stuck .film det) := by
      show calcReflTrans _ _ _ _ _ _ = _
      unfold calcReflTrans
      rw [hl]; rfl
    by_cases hk : c.known = 0
    · left
      have := distribute_film_nan H.nt_pos hL hgood hk det
      exact ⟨hk, _, hcall, this.1, this.2⟩
    · right
      obtain ⟨e1, e2, e3, e4⟩ := distribute_film_fin H.nt_pos hL hk det
      exact ⟨hk, _, hcall, e3, e4, e1, e2⟩

end
end Verif.Weights
