import Verif.Props.BatchesFilm

/-!
# C148: a thicker film reflects more and transmits less
-/

namespace Verif.Props
noncomputable section
open Classical Verif.Spec Verif.Root Verif.Fresnel Verif.Exits Verif.Weights _root_.Verif.XF
open Verif.Simulation Verif.Traj Verif.Init
open Verif (XF PyErr)

variable {nt num nev : ℕ}

/-- a photon at height `h` is in the film -/
def Inside (bot top h : ℝ) : Prop := bot ≤ h ∧ h < top

section path
variable {n bot top : ℝ} {z : Fin (nev + 1) → ℝ} {kz : Fin nev → ℝ}

theorem cone_matched (hn : 0 < n) {k : ℝ} : n * Real.sqrt (1 - k ^ 2) < n ↔ k ≠ 0 := by
  constructor
  · rintro h rfl
    simp at h
  · intro h
    have : 0 < k ^ 2 := by positivity
    have h1 : Real.sqrt (1 - k ^ 2) < 1 := by
      rw [Real.sqrt_lt' one_pos]; linarith
    nlinarith

theorem leaves_matched (hn : 0 < n) (hbt : bot < top) (hk : ∀ e, kz e = 0 → z e.succ = z e.castSucc) (e : Fin nev)
    (hin : Inside bot top (z e.castSucc)) :
    (LeavesThrough n n bot top bot z kz e ↔ z e.succ < bot) ∧ (LeavesThrough n n bot top top z kz e ↔ top ≤ z e.succ) := by
  have hd : 0 < top - bot := by linarith
  have f0 : ⌊(z e.castSucc - bot) / (top - bot)⌋ = 0 := by
    rw [Int.floor_eq_zero_iff]
    refine ⟨div_nonneg (by linarith [hin.1]) hd.le, ?_⟩
    rw [div_lt_one hd]; linarith [hin.2]
  have fneg : ⌊(z e.succ - bot) / (top - bot)⌋ < 0 ↔ z e.succ < bot := by
    rw [Int.floor_lt, Int.cast_zero, div_lt_iff₀ hd, zero_mul]; constructor <;> intro h <;> linarith
  have fpos : 0 < ⌊(z e.succ - bot) / (top - bot)⌋ ↔ top ≤ z e.succ := by
    rw [Int.lt_iff_add_one_le, zero_add, Int.le_floor, Int.cast_one, one_le_div hd]
    constructor <;> intro h <;> linarith
  have hz : ∀ f, (f < bot ∨ top ≤ f) → z e.succ = f → kz e ≠ 0 := by
    rintro f hf h h0
    rw [hk e h0] at h
    rcases hf with hf | hf
    · linarith [hin.1]
    · linarith [hin.2]
  unfold LeavesThrough
  simp only [firstCrossed_floor, f0, cone_matched hn, zero_add]
  have g0 : fold ((0:ℤ):ℝ) = 0 := by rw [fold_int]; simp
  have g1 : fold ((1:ℤ):ℝ) = 1 := by rw [fold_int]; simp
  constructor
  · constructor
    · rintro ⟨-, b, ⟨h1, rfl⟩, h3⟩
      rcases lt_or_gt_of_ne h1 with h | h
      · exact fneg.mp h
      · rw [if_pos h, g1] at h3; linarith
    · intro h
      refine ⟨hz _ (Or.inl h) rfl, 0, ⟨(fneg.mpr h).ne, ?_⟩, by rw [g0]; ring⟩
      rw [if_neg (not_lt.mpr (fneg.mpr h).le)]
  · constructor
    · rintro ⟨-, b, ⟨h1, rfl⟩, h3⟩
      rcases lt_or_gt_of_ne h1 with h | h
      · rw [if_neg (not_lt.mpr h.le), g0] at h3; linarith
      · exact fpos.mp h
    · intro h
      refine ⟨hz _ (Or.inr h) rfl, 1, ⟨(fpos.mpr h).ne', ?_⟩, by rw [g1]; ring⟩
      rw [if_pos (fpos.mpr h)]

/-- the first `m` events without leaving -/
theorem inside_upto (hn : 0 < n) (hbt : bot < top) (hk : ∀ e, kz e = 0 → z e.succ = z e.castSucc) (h0 : Inside bot top (z 0)) {m : ℕ}
    (hm : ∀ e : Fin nev, e.val < m → ¬ LeavesThrough n n bot top bot z kz e ∧ ¬ LeavesThrough n n bot top top z kz e) :
    ∀ i : Fin (nev + 1), i.val ≤ m → Inside bot top (z i) := by
  intro i
  induction i using Fin.induction with
  | zero => intro _; exact h0
  | succ e ih =>
    intro hi
    have hlt : e.val < m := by simpa [Nat.succ_le_iff] using hi
    have hin := ih (by simpa using hlt.le)
    obtain ⟨h1, h2⟩ := leaves_matched hn hbt hk e hin
    obtain ⟨h3, h4⟩ := hm e hlt
    rw [h1] at h3; rw [h2] at h4
    push Not at h3 h4
    exact ⟨h3, h4⟩

/-- What becomes of a photon in an index-matched film, from its heights alone. -/
theorem fate_matched (hn : 0 < n) (hbt : bot < top) (hk : ∀ e, kz e = 0 → z e.succ = z e.castSucc) (h0 : Inside bot top (z 0)) :
    (∀ e, filmFate n n bot top z kz = .reflected e ↔ (∀ i ≤ e.castSucc, Inside bot top (z i)) ∧ z e.succ < bot) ∧
    (∀ e, filmFate n n bot top z kz = .transmitted e ↔ (∀ i ≤ e.castSucc, Inside bot top (z i)) ∧ top ≤ z e.succ) ∧
    (filmFate n n bot top z kz = .trapped ↔ ∀ i, Inside bot top (z i)) := by
  have stay : ∀ e : Fin nev, (∀ i ≤ e.castSucc, Inside bot top (z i)) → ∀ e', e' < e →
      ¬ LeavesThrough n n bot top bot z kz e' ∧ ¬ LeavesThrough n n bot top top z kz e' := by
    intro e h e' he'
    obtain ⟨h1, h2⟩ := leaves_matched hn hbt hk e' (h _ (Fin.castSucc_le_castSucc_iff.mpr he'.le))
    have h3 := h e'.succ (by rw [Fin.le_def]; simpa [Nat.succ_le_iff] using he')
    rw [h1, h2]
    exact ⟨not_lt.mpr h3.1, not_le.mpr h3.2⟩
  have inn : ∀ e : Fin nev, (∀ e', e' < e → ¬ LeavesThrough n n bot top bot z kz e' ∧ ¬ LeavesThrough n n bot top top z kz e') →
      ∀ i ≤ e.castSucc, Inside bot top (z i) := fun e h i hi =>
    inside_upto hn hbt hk h0 (m := e.val) (fun e' he' => h e' he') i (by simpa [Fin.le_def] using hi)
  refine ⟨fun e => ?_, fun e => ?_, ?_⟩
  · rw [filmFate_iff _ _ hbt]
    constructor
    · rintro ⟨h1, h2⟩
      have h3 := inn e h2
      exact ⟨h3, (leaves_matched hn hbt hk e (h3 _ le_rfl)).1.mp h1⟩
    · rintro ⟨h1, h2⟩
      exact ⟨(leaves_matched hn hbt hk e (h1 _ le_rfl)).1.mpr h2, stay e h1⟩
  · rw [filmFate_iff _ _ hbt]
    constructor
    · rintro ⟨h1, h2⟩
      have h3 := inn e h2
      exact ⟨h3, (leaves_matched hn hbt hk e (h3 _ le_rfl)).2.mp h1⟩
    · rintro ⟨h1, h2⟩
      exact ⟨(leaves_matched hn hbt hk e (h1 _ le_rfl)).2.mpr h2, stay e h1⟩
  · rw [filmFate_iff _ _ hbt]
    constructor
    · intro h i
      exact inside_upto hn hbt hk h0 (m := nev) (fun e _ => h e) i (by omega)
    · intro h e
      obtain ⟨h1, h2⟩ := leaves_matched hn hbt hk e (h _)
      rw [h1, h2]
      exact ⟨not_lt.mpr (h _).1, not_le.mpr (h _).2⟩

end path

section photon
variable {o : FilmOptics} {bot top top' : ℝ} {z : Fin (nev + 2) → ℝ} {kz w : Fin (nev + 1) → ℝ}

/-- part that passes a face between equal indices -/
theorem platePass_matched {n θ : ℝ} (hn : 0 < n) (h0 : 0 ≤ θ) (h1 : θ < Real.pi / 2) : platePass n none n θ = 1 / (1 + 1 / 10 ^ 9) := by
  have hs : Real.sin θ < 1 := by
    rw [← Real.sin_pi_div_two]
    exact Real.sin_lt_sin_of_lt_of_le_pi_div_two (by linarith [Real.pi_pos]) le_rfl h1
  have ha : Real.arcsin (n * Real.sin θ / n) = θ := by
    rw [mul_div_cancel_left₀ _ hn.ne', Real.arcsin_sin (by linarith [Real.pi_pos]) h1.le]
  unfold platePass
  simp only [Option.getD_none, ha]
  have hc : fresnelR n n θ θ = 0 := by unfold fresnelR; simp
  rw [hc, if_neg]
  · norm_num
  · push Not
    exact ⟨by nlinarith, by nlinarith, h1.ne⟩

/-- light of a photon whose fate is known -/
def ownKnown (p : Photon) : ℝ := (p.enter - p.outR - p.outT - p.trapped) + p.outR * p.escR + p.outT * p.escT

/-- The photons of two films that differ in thickness: own contributions. -/
theorem photon_thicker (hn : 0 < o.outside) (hso : o.surface = o.outside) (hf : o.front = none) (hb : o.back = none)
    (hbt : bot < top) (htt : top ≤ top') (hk : ∀ e, kz e = 0 → z e.succ = z e.castSucc)
    (h0 : Inside bot top (z 0)) (hw : ∀ e, IsFraction (w e)) (hanti : Antitone w) :
    let p := smoothPhoton o bot top z kz w
    let q := smoothPhoton o bot top' z kz w
    ownR p ≤ ownR q ∧ ownT q ≤ ownT p ∧ photonBack p ≤ 1 / 10 ^ 9 ∧ photonBack q ≤ 1 / 10 ^ 9 ∧
    p.enter = q.enter ∧ (ownKnown p = 0 → ownKnown q = 0) := by
  have h0' : Inside bot top' (z 0) := ⟨h0.1, h0.2.trans_le htt⟩
  obtain ⟨a1, a2, a3⟩ := fate_matched hn hbt hk h0
  obtain ⟨b1, b2, b3⟩ := fate_matched hn (hbt.trans_le htt) hk h0'
  have ok : ∀ t, PhotonOK (smoothPhoton o bot t z kz w) := fun t => smoothPhoton_ok hn (hso ▸ hn) (by simp [hf]) (by simp [hb]) hw
  have okp := ok top
  have okq := ok top'
  intro p q
  set c : ℝ := 1 / (1 + 1 / 10 ^ 9) with hc
  have hc1 : 1 - c ≤ 1 / 10 ^ 9 := by rw [hc]; norm_num
  have hc0 : 1 / 2 ≤ c := by rw [hc]; norm_num
  have hc2 : c ≤ 1 := by rw [hc]; norm_num
  set E : ℝ := p.enter with hE
  have hqE : q.enter = E := rfl
  have hE0 : 0 ≤ E := okp.enter.1
  have hE1 : E ≤ 1 := okp.enter.2
  -- angles at the faces
  have moved : ∀ e : Fin (nev + 1), z e.succ ≠ z e.castSucc → platePass o.surface none o.outside (Real.arccos |kz e|) = c := by
    intro e he
    rw [hso]
    refine platePass_matched hn (Real.arccos_nonneg _) ?_
    rw [Real.arccos_lt_pi_div_two]
    exact abs_pos.mpr fun h => he (hk e h)
  have fateR : ∀ {t : ℝ} {e}, filmFate o.surface o.outside bot t z kz = .reflected e →
      let s := smoothPhoton o bot t z kz w
      s.outR = E * w e ∧ s.outT = 0 ∧ s.trapped = 0 ∧ s.escR = platePass o.surface none o.outside (Real.arccos |kz e|) := by
    intro t e h
    simp only [smoothPhoton, filmPhotons, h, Fate.reflEvent, Fate.transEvent, Fate.lastEvent, valueAt, mul_zero, hf]
    exact ⟨by simp only [hE, p, smoothPhoton, filmPhotons, hf], trivial, trivial, trivial⟩
  have fateT : ∀ {t : ℝ} {e}, filmFate o.surface o.outside bot t z kz = .transmitted e →
      let s := smoothPhoton o bot t z kz w
      s.outR = 0 ∧ s.outT = E * w e ∧ s.trapped = 0 ∧ s.escT = platePass o.surface none o.outside (Real.arccos |kz e|) := by
    intro t e h
    simp only [smoothPhoton, filmPhotons, h, Fate.reflEvent, Fate.transEvent, Fate.lastEvent, valueAt, mul_zero, hf, hb]
    exact ⟨trivial, by simp only [hE, p, smoothPhoton, filmPhotons, hf], trivial, trivial⟩
  have fateS : ∀ {t : ℝ}, filmFate o.surface o.outside bot t z kz = .trapped →
      let s := smoothPhoton o bot t z kz w
      s.outR = 0 ∧ s.outT = 0 ∧ s.trapped = E * w (Fin.last nev) := by
    intro t h
    simp only [smoothPhoton, filmPhotons, h, Fate.reflEvent, Fate.transEvent, Fate.lastEvent, valueAt, mul_zero, hf]
    exact ⟨trivial, trivial, by simp only [hE, p, smoothPhoton, filmPhotons, hf]⟩
  have inc : ∀ t, (smoothPhoton o bot t z kz w).seenInc = p.seenInc := fun t => rfl
  have hEw : ∀ e, 0 ≤ E * w e ∧ E * w e ≤ 1 := fun e => ⟨mul_nonneg hE0 (hw e).1, mul_le_one₀ hE1 (hw e).1 (hw e).2⟩
  have back : ∀ t, bot < t → Inside bot t (z 0) → photonBack (smoothPhoton o bot t z kz w) ≤ 1 / 10 ^ 9 := by
    intro t ht hi
    obtain ⟨c1, c2, -⟩ := fate_matched hn ht hk hi
    rw [← hso] at c1 c2
    rw [show filmFate o.surface o.surface bot t z kz = filmFate o.surface o.outside bot t z kz by rw [hso]] at c1 c2
    unfold photonBack
    cases h : filmFate o.surface o.outside bot t z kz with
    | reflected e =>
      obtain ⟨g1, g2, -, g4⟩ := fateR h
      have := (c1 e).mp h
      rw [g1, g2, g4, moved e (by have := this.1 _ le_rfl; have := this.1; linarith [(c1 e).mp h |>.2])]
      nlinarith [hEw e]
    | transmitted e =>
      obtain ⟨g1, g2, -, g4⟩ := fateT h
      rw [g1, g2, g4, moved e (by have := ((c2 e).mp h).1 _ le_rfl; have := this.2; linarith [(c2 e).mp h |>.2])]
      nlinarith [hEw e]
    | trapped =>
      obtain ⟨g1, g2, -⟩ := fateS h
      rw [g1, g2]; norm_num
  have hff : ∀ t, filmFate o.outside o.outside bot t z kz = filmFate o.surface o.outside bot t z kz := fun t => by rw [hso]
  simp only [hff] at a1 a2 a3 b1 b2 b3
  suffices main : ownR p ≤ ownR q ∧ ownT q ≤ ownT p ∧ (ownKnown p = 0 → ownKnown q = 0) from
    ⟨main.1, main.2.1, back top hbt h0, back top' (hbt.trans_le htt) h0', rfl, main.2.2⟩
  have wide : ∀ {h}, Inside bot top h → Inside bot top' h := fun h => ⟨h.1, h.2.trans_le htt⟩
  have hi := inc top'
  unfold ownR ownT ownKnown
  change _ ≤ q.outR * q.escR + (if q.seenInc then 1 - E else 0) + q.trapped / 2 ∧ _ ∧ (E - p.outR - p.outT - p.trapped + _ + _ = 0 → E - q.outR - q.outT - q.trapped + _ + _ = 0)
  rw [hi]
  cases hp : filmFate o.surface o.outside bot top z kz with
  | reflected e =>
    obtain ⟨c1, c2⟩ := (a1 e).mp hp
    have hq := (b1 e).mpr ⟨fun i hi => wide (c1 i hi), c2⟩
    obtain ⟨g1, g2, g3, g4⟩ := fateR hp
    obtain ⟨k1, k2, k3, k4⟩ := fateR hq
    have e1 : p.outR = q.outR := g1.trans k1.symm
    have e2 : p.outT = 0 := g2
    have e2' : q.outT = 0 := k2
    have e3 : p.trapped = q.trapped := g3.trans k3.symm
    have e4 : p.escR = q.escR := g4.trans k4.symm
    rw [e1, e2, e2', e3, e4]
    exact ⟨le_refl (q.outR * q.escR + (if p.seenInc then 1 - E else 0) + q.trapped / 2), by simp, by simp⟩
  | trapped =>
    have hq := b3.mpr fun i => wide (a3.mp hp i)
    obtain ⟨g1, g2, g3⟩ := fateS hp
    obtain ⟨k1, k2, k3⟩ := fateS hq
    have e1 : p.outR = 0 := g1
    have e1' : q.outR = 0 := k1
    have e2 : p.outT = 0 := g2
    have e2' : q.outT = 0 := k2
    have e3 : p.trapped = q.trapped := g3.trans k3.symm
    rw [e1, e1', e2, e2', e3]
    exact ⟨by simp [hE], by simp, by simp⟩
  | transmitted e =>
    obtain ⟨c1, c2⟩ := (a2 e).mp hp
    obtain ⟨g1, g2, g3, g4⟩ := fateT hp
    have later : ∀ e' : Fin (nev + 1), (z e'.succ < bot ∨ top' ≤ z e'.succ) → e ≤ e' := by
      intro e' h
      by_contra hlt
      push Not at hlt
      have := c1 e'.succ (by rw [Fin.le_def]; simpa [Nat.succ_le_iff] using hlt)
      rcases h with h | h
      · linarith [this.1]
      · linarith [this.2]
    have mov := moved e (by have := (c1 _ le_rfl).2; linarith)
    have hwl : ∀ e', e ≤ e' → E * w e' ≤ E * w e := fun e' h => mul_le_mul_of_nonneg_left (hanti h) hE0
    have key : ∀ X : ℝ, 0 ≤ q.outR * q.escR + q.trapped / 2 → q.outT * q.escT + q.trapped / 2 ≤ E * w e * c → 0 ≤ q.trapped →
        p.outR * p.escR + X + p.trapped / 2 ≤ q.outR * q.escR + X + q.trapped / 2 ∧
        q.outT * q.escT + q.trapped / 2 ≤ p.outT * p.escT + p.trapped / 2 ∧
        (E - p.outR - p.outT - p.trapped + p.outR * p.escR + p.outT * p.escT = 0 → E - q.outR - q.outT - q.trapped + q.outR * q.escR + q.outT * q.escT = 0) := by
      intro X h1 h2 h3
      have hz : E = 0 → E - q.outR - q.outT - q.trapped + q.outR * q.escR + q.outT * q.escT = 0 := by
        intro h
        have := okq.sum
        have hR := okq.outR.1
        have hT := okq.outT.1
        rw [hqE, h] at this
        have r0 : q.outR = 0 := by linarith
        have t0 : q.outT = 0 := by linarith
        have s0 : q.trapped = 0 := by linarith
        rw [h, r0, t0, s0]; ring
      simp only [p, g1, g2, g3, g4, mov]
      refine ⟨by linarith, by linarith, fun h => hz ?_⟩
      have h4 : E * w e ≤ E := mul_le_of_le_one_right hE0 (hw e).2
      have gen : ∀ X E c y : ℝ, 0 ≤ E → X ≤ E → 1 / 2 ≤ c → c ≤ 1 → E - 0 - X - 0 + 0 * y + X * c = 0 → E = 0 := by
        intro X E c y h0 h1 h2 h3 h
        nlinarith
      exact gen _ _ _ _ hE0 h4 hc0 hc2 h
    refine key _ ?_ ?_ okq.trapped.1
    · have := mul_nonneg okq.outR.1 okq.escR.1
      have := okq.trapped.1
      linarith
    · cases hq : filmFate o.surface o.outside bot top' z kz with
      | reflected e' =>
        obtain ⟨k1, k2, k3, k4⟩ := fateR hq
        simp only [q, k2, k3]
        nlinarith [hEw e]
      | transmitted e' =>
        obtain ⟨k1, k2, k3, k4⟩ := fateT hq
        have he := later e' (Or.inr ((b2 e').mp hq).2)
        have mov' := moved e' (by have := ((b2 e').mp hq).1 _ le_rfl; have := this.2; linarith [((b2 e').mp hq).2])
        simp only [q, k2, k3, k4, mov']
        nlinarith [hwl e' he]
      | trapped =>
        obtain ⟨k1, k2, k3⟩ := fateS hq
        simp only [q, k2, k3]
        nlinarith [hwl _ (Fin.le_last e), hEw e]

end photon

/-! ## runs -/

variable {nt num : ℕ}

/-- the spot changes where the light enters, not how deep it goes -/
theorem spot_init (a : Args nt) (hfilm : a.boundary = .film) (c : ℝ) : ∀ p, initializeTraj a = .ok p →
    ∃ r, initializeTraj (scaleArgs c a) = .ok { p with r0 := r } ∧ ∀ i j, (valV (r i j)).z = (valV (p.r0 i j)).z := by
  intro p
  have hrow : ∀ i (j : Fin nt), (valV (firstRow (fun j => Geometry.finV (a.ux j * (c * a.spot_size)) (a.uy j * (c * a.spot_size)) 0) i j)).z =
      (valV (firstRow (fun j => Geometry.finV (a.ux j * a.spot_size) (a.uy j * a.spot_size) 0) i j)).z := by
    intro i j
    unfold firstRow
    split <;> rfl
  unfold initializeTraj enter
  simp only [scaleArgs, hfilm]
  split
  · intro h; cases h
  · split
    · intro h; cases h
    · split
      · intro h; cases h
      · split
        · intro h; injection h with h; subst h
          exact ⟨_, rfl, hrow⟩
        · split
          · intro h; cases h
          · intro h; injection h with h; subst h
            exact ⟨_, rfl, hrow⟩

/-- How deep the photons of a run are, and what they weigh. -/
theorem film_depths {a : Args nt} {S : Sampling nt num} {d : DetArgs} (H : FilmRun a S d) {nev : ℕ} {t : Trajs nt}
    (ht : simulate (nev + 1) a S = .ok t) :
    (∀ j, (t.position 0 j).z = 0) ∧ (∀ i j, (t.direction i j).z = 0 → (t.position (i + 1) j).z = (t.position i j).z) ∧
    (∀ j, Antitone fun i => t.weight i j) ∧ (∀ i j, IsFraction (t.weight i j)) ∧
    ∀ c : ℝ, ∃ t', simulate (nev + 1) (scaleArgs c a) S = .ok t' ∧ ∀ i j, (t'.position i j).z = (t.position i j).z ∧
      (t'.direction i j).z = (t.direction i j).z ∧ t'.weight i j = t.weight i j := by
  obtain ⟨p, hp, hw, -⟩ := init_facts H
  obtain ⟨ang, hang, -⟩ := C35_sample_angles_1d (nt := nt) (nev + 1) S.p S.min_angle S.draw_theta S.rand_phi H.phase
    H.min_angle.1 H.min_angle.2 H.phase_pos H.rand_phi
  obtain ⟨s, hs, hs0⟩ := step_real H
  obtain ⟨t', ht', -, hfr, -, -, -, h0, -⟩ := simulate_facts H nev
  rw [ht] at ht'
  injection ht' with ht'
  subst ht'
  have hrun : simulate (nev + 1) a S = .ok
      { position := move (fun i j => valV (p.r0 i j)) s (scatter (nev + 1) (fun i j => valV (p.k0 i j)) ang.sintheta ang.costheta ang.sinphi ang.cosphi)
        direction := scatter (nev + 1) (fun i j => valV (p.k0 i j)) ang.sintheta ang.costheta ang.sinphi ang.cosphi
        weight := absorb p.weight0 S.mu_abs s
        kz0_rot := p.kz0_rot.map fun f j => val (f j)
        kz0_refl := p.kz0_refl.map fun f j => val (f j) } := by
    simp only [simulate, hp, hang, hs, Bind.bind, Except.bind, Pure.pure, Except.pure, val]
  rw [ht] at hrun
  injection hrun with hrun
  have step : ∀ (r k : ℕ → Fin nt → V3) (i : ℕ) (j : Fin nt), (move r s k (i + 1) j).z = (move r s k i j).z + s i j * (k i j).z := by
    intro r k i j
    have := congrArg V3.z (C33_move_steps r s k i j).2
    simp only [V3.sub, V3.smul] at this
    linarith
  refine ⟨h0, ?_, ?_, hfr, ?_⟩
  · subst hrun
    intro i j h
    dsimp only at h ⊢
    rw [step, h, mul_zero, add_zero]
  · subst hrun
    intro j
    refine antitone_nat_of_succ_le fun i => ?_
    exact (C31_absorb_bounds p.weight0 S.mu_abs s H.mu_abs (fun n j => (hs0 n j).1) i j).2.2.2 (by rw [hw]; exact zero_le_one)
      (by rw [hw, hw])
  · intro c
    obtain ⟨r, hp', hr⟩ := spot_init a H.film c p hp
    refine ⟨{ position := move (fun i j => valV (r i j)) s (scatter (nev + 1) (fun i j => valV (p.k0 i j)) ang.sintheta ang.costheta ang.sinphi ang.cosphi)
              direction := scatter (nev + 1) (fun i j => valV (p.k0 i j)) ang.sintheta ang.costheta ang.sinphi ang.cosphi
              weight := absorb p.weight0 S.mu_abs s
              kz0_rot := p.kz0_rot.map fun f j => val (f j)
              kz0_refl := p.kz0_refl.map fun f j => val (f j) }, ?_, ?_⟩
    · simp only [simulate, hp', hang, hs, Bind.bind, Except.bind, Pure.pure, Except.pure, val]
    · subst hrun
      intro i j
      refine ⟨?_, rfl, rfl⟩
      dsimp only
      induction i with
      | zero => rw [(C33_move_steps _ s _ 0 j).1, (C33_move_steps _ s _ 0 j).1]; exact hr 0 j
      | succ i ih => rw [step, step, ih]

/-- Two films that differ in thickness (and in the width of the spot), with the same random numbers. -/
theorem thicker_core {a : Args nt} {S : Sampling nt num} {d : DetArgs} (H : FilmRun a S d) (hflat : a.coarse_roughness = 0)
    (hfine : d.fine_roughness = 0) (hg : d.gonio = none) (hmatch : d.n_medium = d.n_sample) (hfront : d.n_front = none) (hback : d.n_back = none)
    (hdet : d.detection_angle = Real.pi / 2) (hlow : d.z_low ≤ 0) (hpos : 0 < d.thickness) {L : ℝ} (hL : d.thickness ≤ L) (c : ℝ) (nev : ℕ)
    {rt rt' : RT nt} (hrt : runFilm nev a S d = .ok rt) (hrt' : runFilm nev (scaleArgs c a) S { d with thickness := L } = .ok rt') :
    ∀ R' T', rt'.R = fin R' → rt'.T = fin T' → ∃ R T, rt.R = fin R ∧ rt.T = fin T ∧ R ≤ R' + 1 / 10 ^ 9 ∧ T' ≤ T + 1 / 10 ^ 9 := by
  intro R' T' hR' hT'
  set d' : DetArgs := { d with thickness := L } with hd'
  have H' : FilmRun (scaleArgs c a) S d' :=
    { nt_pos := H.nt_pos, film := H.film, no_diameter := H.no_diameter, theta_len := H.theta_len, phi_len := H.phi_len
      theta_range := H.theta_range, phi_range := H.phi_range, same_medium := H.same_medium, same_sample := H.same_sample
      medium_pos := H.medium_pos, not_denser := H.not_denser, front := H.front, back := H.back, particle := H.particle
      matrix := H.matrix, fine := H.fine, draw_t := H.draw_t, draw_p := H.draw_p, phase := H.phase, min_angle := H.min_angle
      phase_pos := H.phase_pos, rand_phi := H.rand_phi, mu_scat := H.mu_scat, mu_mie := H.mu_mie, fine_step := H.fine_step
      rand_step := H.rand_step, rand_mie := H.rand_mie, mu_abs := H.mu_abs }
  obtain ⟨t, ht, -⟩ := simulate_facts H nev
  obtain ⟨z0, hk, hanti, hfr, hspot⟩ := film_depths H ht
  obtain ⟨t', ht', hsame⟩ := hspot c
  have htir : d.optics.n_tir = d.n_sample := by
    show Weights.nTir _ _ _ _ = _
    unfold Weights.nTir
    rw [hfine]
    cases d.n_particle <;> cases d.n_matrix <;> simp
  have hs : 0 < d.n_sample := lt_of_lt_of_le H.medium_pos H.not_denser
  have seen := fun (L : ℝ) j => smooth_all_seen (o := d.optics.medium) (nev := nev) htir.symm (by show 0 < d.optics.n_tir; rw [htir]; exact hs)
    H.medium_pos hdet d.z_low L (fun e => (t.position e j).z) (fun e => (t.direction e j).z) (fun e => t.weight e j)
  obtain ⟨ok, r, hr, hcase⟩ := run_photons H hflat hfine hg (hlow.trans_lt hpos) ht
  obtain ⟨ok', r', hr', hcase'⟩ := run_photons H' hflat hfine hg (lt_of_le_of_lt hlow (lt_of_lt_of_le hpos hL)) ht'
  rw [hrt] at hr
  rw [hrt'] at hr'
  injection hr with hr
  injection hr' with hr'
  subst hr hr'
  let p : Fin nt → Photon := simPhoton nev d t
  let q : Fin nt → Photon := fun j => smoothPhoton (nev := nev) d.optics.medium d.z_low L (fun e => (t.position e j).z)
    (fun e => (t.direction e j).z) (fun e => t.weight e j)
  have hq : simPhoton nev d' t' = q := by
    funext j
    simp only [simPhoton, q, fun i j => (hsame i j).1, fun i j => (hsame i j).2.1, fun i j => (hsame i j).2.2]
    rfl
  rw [hq] at ok' hcase'
  have photon : ∀ j, ownR (p j) ≤ ownR (q j) ∧ ownT (q j) ≤ ownT (p j) ∧ photonBack (p j) ≤ 1 / 10 ^ 9 ∧ photonBack (q j) ≤ 1 / 10 ^ 9 ∧
      (p j).enter = (q j).enter ∧ (ownKnown (p j) = 0 → ownKnown (q j) = 0) := fun j =>
    photon_thicker (o := d.optics.medium) H.medium_pos (by show d.optics.n_tir = d.n_medium; rw [htir, hmatch]) hfront hback
      (hlow.trans_lt hpos) hL (fun e h => hk e j h) ⟨by simpa [z0 j] using hlow, by simpa [z0 j] using hpos⟩ (fun e => hfr e j)
      (fun i j h => hanti _ h)
  rcases hcase' with ⟨-, h, -⟩ | ⟨hk', h1', h2'⟩
  · rw [hR'] at h; exact (nomatch h)
  have hknown : ∀ s : Fin nt → Photon, Photon.known s = ∑ j, ownKnown (s j) := by
    intro s
    simp only [Photon.known, Photon.absorbed, Photon.escapedR, Photon.escapedT, ownKnown, Finset.sum_add_distrib]
  have hnn : ∀ j, 0 ≤ ownKnown (p j) := fun j => by
    have := (ok j).sum
    have := mul_nonneg (ok j).outR.1 (ok j).escR.1
    have := mul_nonneg (ok j).outT.1 (ok j).escT.1
    unfold ownKnown
    linarith
  have hkp : Photon.known p ≠ 0 := by
    intro h0
    rw [hknown, Finset.sum_eq_zero_iff_of_nonneg fun j _ => hnn j] at h0
    refine hk' ?_
    rw [hknown]
    exact Finset.sum_eq_zero fun j _ => (photon j).2.2.2.2.2 (h0 j (Finset.mem_univ j))
  rcases hcase with ⟨h, -⟩ | ⟨-, h1, h2⟩
  · exact absurd h hkp
  refine ⟨_, _, h1, h2, ?_⟩
  rw [hR', fin_inj] at h1'
  rw [hT', fin_inj] at h2'
  subst h1' h2'
  obtain ⟨⟨a1, a2⟩, ⟨a3, a4⟩⟩ := own_bounds H.nt_pos ok (fun j => (seen d.thickness j).1) (fun j => (seen d.thickness j).2) hkp
  obtain ⟨⟨b1, b2⟩, ⟨b3, b4⟩⟩ := own_bounds H.nt_pos ok' (fun j => (seen L j).1) (fun j => (seen L j).2) hk'
  have sR : ∑ j, ownR (p j) ≤ ∑ j, ownR (q j) := Finset.sum_le_sum fun j _ => (photon j).1
  have sT : ∑ j, ownT (q j) ≤ ∑ j, ownT (p j) := Finset.sum_le_sum fun j _ => (photon j).2.1
  have bound : ∀ s : Fin nt → Photon, (∀ j, photonBack (s j) ≤ 1 / 10 ^ 9) → ∑ j, photonBack (s j) ≤ nt * (1 / 10 ^ 9) := by
    intro s h
    calc ∑ j, photonBack (s j) ≤ ∑ _j : Fin nt, (1 / 10 ^ 9 : ℝ) := Finset.sum_le_sum fun j _ => h j
      _ = nt * (1 / 10 ^ 9) := by simp
  have sp := bound p fun j => (photon j).2.2.1
  have sq := bound q fun j => (photon j).2.2.2.1
  have hN : (0:ℝ) < nt := by exact_mod_cast H.nt_pos
  have c2 : (nt:ℝ) * ∑ j, Photon.refl p j ≤ ∑ j, ownR (p j) + ∑ j, photonBack (p j) := a2
  have c3 : ∑ j, ownT (p j) ≤ (nt:ℝ) * ∑ j, Photon.trans p j := a3
  have c1 : ∑ j, ownR (q j) ≤ (nt:ℝ) * ∑ j, Photon.refl q j := b1
  have c4 : (nt:ℝ) * ∑ j, Photon.trans q j ≤ ∑ j, ownT (q j) + ∑ j, photonBack (q j) := b4
  constructor
  · refine le_of_mul_le_mul_left ?_ hN
    rw [mul_add]
    exact c2.trans (by linarith)
  · refine le_of_mul_le_mul_left ?_ hN
    rw [mul_add]
    exact c4.trans (by linarith)

/-- C148.  **A thicker film reflects more and transmits less.**  Two runs with the same random numbers on films of the index of the medium
around them, without cover slips and with smooth surfaces, all light leaving being seen, that differ in the thickness: the reflectance of the
thicker film is not smaller and its transmittance not larger, up to the constant `10⁻⁹` that the code adds to its denominators; and when the
thicker film gives numbers, so does the thinner one. -/
theorem C148_thicker_film {a : Args nt} {S : Sampling nt num} {d : DetArgs} (H : FilmRun a S d) (hflat : a.coarse_roughness = 0)
    (hfine : d.fine_roughness = 0) (hg : d.gonio = none) (hmatch : d.n_medium = d.n_sample) (hfront : d.n_front = none) (hback : d.n_back = none)
    (hdet : d.detection_angle = Real.pi / 2) (hlow : d.z_low ≤ 0) (hpos : 0 < d.thickness) {L : ℝ} (hL : d.thickness ≤ L) (nev : ℕ)
    {rt rt' : RT nt} (hrt : runFilm nev a S d = .ok rt) (hrt' : runFilm nev a S { d with thickness := L } = .ok rt') :
    ∀ R' T', rt'.R = fin R' → rt'.T = fin T' → ∃ R T, rt.R = fin R ∧ rt.T = fin T ∧ R ≤ R' + 1 / 10 ^ 9 ∧ T' ≤ T + 1 / 10 ^ 9 := by
  have e : scaleArgs 1 a = a := by simp [scaleArgs]
  rw [← e] at hrt'
  exact thicker_core H hflat hfine hg hmatch hfront hback hdet hlow hpos hL 1 nev hrt hrt'

/-- a sample with `k` times as many scatterers and absorbers in the same volume -/
def denser (k : ℝ) (S : Sampling nt num) : Sampling nt num :=
  { S with mu_scat := k * S.mu_scat, mu_scat_mie := S.mu_scat_mie.map (k * ·), mu_abs := k * S.mu_abs }

/-- C148.  **A denser sample reflects more and transmits less.**  As `C148_thicker_film`, for two films of one thickness, the second one with
`k ≥ 1` times as many scatterers and absorbers in the same volume. -/
theorem C148_denser_film {a : Args nt} {S : Sampling nt num} {d : DetArgs} (H : FilmRun a S d) (hflat : a.coarse_roughness = 0)
    (hfine : d.fine_roughness = 0) (hg : d.gonio = none) (hmatch : d.n_medium = d.n_sample) (hfront : d.n_front = none) (hback : d.n_back = none)
    (hdet : d.detection_angle = Real.pi / 2) (hlow : d.z_low = 0) (hpos : 0 < d.thickness) {k : ℝ} (hk : 1 ≤ k) (nev : ℕ)
    {rt rt' : RT nt} (hrt : runFilm nev a S d = .ok rt) (hrt' : runFilm nev a (denser k S) d = .ok rt') :
    ∀ R' T', rt'.R = fin R' → rt'.T = fin T' → ∃ R T, rt.R = fin R ∧ rt.T = fin T ∧ R ≤ R' + 1 / 10 ^ 9 ∧ T' ≤ T + 1 / 10 ^ 9 := by
  have hk0 : 0 < k := lt_of_lt_of_le one_pos hk
  have key := C97_film_run_units nev (scaleArgs k a) S { d with thickness := k * d.thickness } H.film H.mu_scat.ne'
    (fun m hm => (H.mu_mie m hm).ne') (inv_pos.mpr hk0)
  have e1 : scaleArgs k⁻¹ (scaleArgs k a) = a := by
    simp [scaleArgs, inv_mul_cancel_left₀ hk0.ne']
  have e2 : scaleSampling k⁻¹ S = denser k S := by
    unfold scaleSampling denser
    simp only [div_inv_eq_mul, mul_comm k]
  have e3 : scaleDet k⁻¹ { d with thickness := k * d.thickness } = d := by
    have := inv_mul_cancel_left₀ hk0.ne' d.thickness
    obtain ⟨_, _, _, z, _, _, _, _, _, _, g⟩ := d
    have hz : z = 0 := hlow
    have hg' : g = none := hg
    subst hz hg'
    simp only [scaleDet, Option.map_none, mul_zero, DetArgs.mk.injEq, true_and, and_true]
    exact this
  rw [e1, e2, e3, hrt'] at key
  exact thicker_core H hflat hfine hg hmatch hfront hback hdet hlow.le hpos (le_mul_of_one_le_left hpos.le hk) k nev hrt key.symm

/-! Non-vacuity: a film of thickness 10 and one of thickness 20, of the index of the medium, absorbing; both runs give numbers. -/

/-- a film of index 1 in air -/
def matchedArgs : Args 1 := { demoArgs with n_sample := 1 }

/-- See `matchedArgs`. -/
def matchedDet : DetArgs := { demoDet none with n_sample := 1 }

theorem matched_filmRun (L : ℝ) {mu : ℝ} (hmu : 0 ≤ mu) : FilmRun matchedArgs (demoSampling mu) { matchedDet with thickness := L } :=
  let H := demo_filmRun mu hmu none
  { nt_pos := H.nt_pos, film := rfl, no_diameter := rfl, theta_len := H.theta_len, phi_len := H.phi_len
    theta_range := le_rfl, phi_range := le_rfl, same_medium := rfl, same_sample := rfl
    medium_pos := one_pos, not_denser := le_rfl, front := H.front, back := H.back, particle := H.particle
    matrix := H.matrix, fine := H.fine, draw_t := H.draw_t, draw_p := H.draw_p, phase := H.phase, min_angle := H.min_angle
    phase_pos := H.phase_pos, rand_phi := H.rand_phi, mu_scat := H.mu_scat, mu_mie := H.mu_mie, fine_step := H.fine_step
    rand_step := H.rand_step, rand_mie := H.rand_mie, mu_abs := H.mu_abs }

example : ∃ rt rt' R T R' T', runFilm 3 matchedArgs (demoSampling 1) matchedDet = .ok rt ∧
    runFilm 3 matchedArgs (demoSampling 1) { matchedDet with thickness := 20 } = .ok rt' ∧ rt.R = fin R ∧ rt.T = fin T ∧ rt'.R = fin R' ∧
    rt'.T = fin T' ∧ R ≤ R' + 1 / 10 ^ 9 ∧ T' ≤ T + 1 / 10 ^ 9 := by
  have run : ∀ L, ∃ rt R T, runFilm 3 matchedArgs (demoSampling 1) { matchedDet with thickness := L } = .ok rt ∧ rt.R = fin R ∧ rt.T = fin T ∧
      0 ≤ R ∧ 0 ≤ T ∧ R + T ≤ 1 := fun L =>
    C95_film_run_absorbing (matched_filmRun L zero_le_one) 3 rfl one_pos rfl rfl rfl rfl
      (fun j θ h => by
        have h' : 0 ≤ θ ∧ θ ≤ 0 := h
        rw [le_antisymm h'.2 h'.1]
        simp) ⟨0, by norm_num [demoSampling], by norm_num [demoSampling]⟩
  obtain ⟨rt, _, _, hrt, -⟩ := run 10
  obtain ⟨rt', R', T', hrt', hR', hT', -⟩ := run 20
  obtain ⟨R, T, h1, h2, h3, h4⟩ := C148_thicker_film (matched_filmRun 10 zero_le_one) rfl rfl rfl rfl rfl rfl rfl le_rfl (by norm_num) (L := 20)
    (by norm_num) 3 hrt hrt' R' T' hR' hT'
  exact ⟨rt, rt', R, T, R', T', hrt, hrt', h1, h2, hR', hT', h3, h4⟩

end
end Verif.Props
