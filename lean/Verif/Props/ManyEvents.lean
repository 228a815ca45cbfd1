import Verif.Props.Consistency
import Verif.Props.Settle

/-!
# C141: the number of events and the number of trajectories grow without bound
-/

namespace Verif.Props

open Classical MeasureTheory ProbabilityTheory Filter Topology Verif.Spec Verif.Traj Verif.Simulation Verif.Init Verif.Exits Verif.Geometry XF

/-! ## Once a photon has left, more events do not change it -/

section Prefix
variable {n nm bot top : ℝ} {z kz : ℕ → ℝ}

theorem leaves_prefix {N N' : ℕ} (h : N ≤ N') (f : ℝ) (e : Fin N) :
    LeavesThrough n nm bot top f (fun e : Fin (N' + 1) => z e) (fun e : Fin N' => kz e) (Fin.castLE h e) ↔
      LeavesThrough n nm bot top f (fun e : Fin (N + 1) => z e) (fun e : Fin N => kz e) e := by
  simp only [LeavesThrough, Fin.val_castLE, Fin.val_castSucc, Fin.val_succ]

theorem fate_prefix (hbt : bot < top) {N N' : ℕ} (h : N ≤ N') :
    (∀ e, filmFate n nm bot top (fun e : Fin (N + 1) => z e) (fun e : Fin N => kz e) = .reflected e →
      filmFate n nm bot top (fun e : Fin (N' + 1) => z e) (fun e : Fin N' => kz e) = .reflected (Fin.castLE h e)) ∧
    (∀ e, filmFate n nm bot top (fun e : Fin (N + 1) => z e) (fun e : Fin N => kz e) = .transmitted e →
      filmFate n nm bot top (fun e : Fin (N' + 1) => z e) (fun e : Fin N' => kz e) = .transmitted (Fin.castLE h e)) ∧
    (filmFate n nm bot top (fun e : Fin (N' + 1) => z e) (fun e : Fin N' => kz e) = .trapped →
      filmFate n nm bot top (fun e : Fin (N + 1) => z e) (fun e : Fin N => kz e) = .trapped) := by
  have before : ∀ e : Fin N, (∀ e', e' < e → ¬ LeavesThrough n nm bot top bot (fun e : Fin (N + 1) => z e) (fun e : Fin N => kz e) e' ∧
      ¬ LeavesThrough n nm bot top top (fun e : Fin (N + 1) => z e) (fun e : Fin N => kz e) e') →
      ∀ e', e' < Fin.castLE h e → ¬ LeavesThrough n nm bot top bot (fun e : Fin (N' + 1) => z e) (fun e : Fin N' => kz e) e' ∧
      ¬ LeavesThrough n nm bot top top (fun e : Fin (N' + 1) => z e) (fun e : Fin N' => kz e) e' := by
    intro e hb e' he'
    have hlt : e'.val < e.val := he'
    have := hb ⟨e'.val, hlt.trans e.isLt⟩ hlt
    rw [← leaves_prefix h, ← leaves_prefix h] at this
    exact this
  refine ⟨fun e he => ?_, fun e he => ?_, fun he => ?_⟩
  · rw [filmFate_iff _ _ hbt] at he ⊢
    exact ⟨(leaves_prefix h _ _).mpr he.1, before e he.2⟩
  · rw [filmFate_iff _ _ hbt] at he ⊢
    exact ⟨(leaves_prefix h _ _).mpr he.1, before e he.2⟩
  · rw [filmFate_iff _ _ hbt] at he ⊢
    intro e
    have := he (Fin.castLE h e)
    rwa [leaves_prefix h, leaves_prefix h] at this

/-- the photon of a path of `N + 1` events -/
noncomputable def pathPhoton (o : FilmOptics) (bot top : ℝ) (z kz w : ℕ → ℝ) (N : ℕ) : Photon :=
  smoothPhoton (nev := N) o bot top (fun e => z e) (fun e => kz e) (fun e => w e)

/-- whether the photon is still inside after `N + 1` events -/
def stillIn (o : FilmOptics) (bot top : ℝ) (z kz : ℕ → ℝ) (N : ℕ) : Prop :=
  filmFate o.surface o.outside bot top (fun e : Fin (N + 2) => z e) (fun e : Fin (N + 1) => kz e) = .trapped

theorem stillIn_anti {o : FilmOptics} (hbt : bot < top) {N N' : ℕ} (h : N ≤ N') (hs : stillIn o bot top z kz N') : stillIn o bot top z kz N :=
  (fate_prefix hbt (by omega)).2.2 hs

theorem photon_prefix {o : FilmOptics} (hbt : bot < top) {w : ℕ → ℝ} {N N' : ℕ} (h : N ≤ N') (hs : ¬ stillIn o bot top z kz N) :
    pathPhoton o bot top z kz w N' = pathPhoton o bot top z kz w N := by
  have hle : N + 1 ≤ N' + 1 := by omega
  unfold stillIn at hs
  unfold pathPhoton smoothPhoton filmPhotons
  obtain ⟨h1, h2, -⟩ := fate_prefix (n := o.surface) (nm := o.outside) (z := z) (kz := kz) hbt hle
  cases hf : filmFate o.surface o.outside bot top (fun e : Fin (N + 2) => z e) (fun e : Fin (N + 1) => kz e) with
  | reflected e => rw [h1 e hf]; rfl
  | transmitted e => rw [h2 e hf]; rfl
  | trapped => exact absurd hf hs

theorem photon_stillIn {o : FilmOptics} {w : ℕ → ℝ} {N : ℕ} (hs : stillIn o bot top z kz N) :
    (pathPhoton o bot top z kz w N).outR = 0 ∧ (pathPhoton o bot top z kz w N).outT = 0 := by
  unfold stillIn at hs
  simp only [pathPhoton, smoothPhoton, filmPhotons, hs, Fate.reflEvent, Fate.transEvent, valueAt, mul_zero, and_self]

theorem photon_left {o : FilmOptics} {w : ℕ → ℝ} {N : ℕ} (hs : ¬ stillIn o bot top z kz N) : (pathPhoton o bot top z kz w N).trapped = 0 := by
  unfold stillIn at hs
  simp only [pathPhoton, smoothPhoton, filmPhotons]
  cases hf : filmFate o.surface o.outside bot top (fun e : Fin (N + 2) => z e) (fun e : Fin (N + 1) => kz e) with
  | reflected e => simp [Fate.lastEvent, valueAt]
  | transmitted e => simp [Fate.lastEvent, valueAt]
  | trapped => exact absurd hf hs

/-- more light of known final state after more events -/
theorem known_mono {o : FilmOptics} (hbt : bot < top) {w : ℕ → ℝ} (hw : Antitone w) {N N' : ℕ} (hN : N ≤ N') (hs : stillIn o bot top z kz N)
    (ok : PhotonOK (pathPhoton o bot top z kz w N')) :
    let p := pathPhoton o bot top z kz w N
    let q := pathPhoton o bot top z kz w N'
    p.enter - p.outR - p.outT - p.trapped + p.outR * p.escR + p.outT * p.escT ≤
      q.enter - q.outR - q.outT - q.trapped + q.outR * q.escR + q.outT * q.escT := by
  intro p q
  obtain ⟨h1, h2⟩ := photon_stillIn (w := w) hs
  have henter : p.enter = q.enter := rfl
  have h0 : p.trapped = q.enter * w N := by
    have hs' := hs
    unfold stillIn at hs'
    simp only [p, pathPhoton, smoothPhoton, filmPhotons, hs', Fate.lastEvent, valueAt]
    rfl
  have hp1 : p.outR = 0 := h1
  have hp2 : p.outT = 0 := h2
  rw [hp1, hp2, henter, h0]
  have late : ∀ (e : Fin (N' + 1)) f, LeavesThrough o.surface o.outside bot top f (fun e : Fin (N' + 2) => z e) (fun e : Fin (N' + 1) => kz e) e →
      (f = bot ∨ f = top) → N ≤ e := by
    intro e f he hf
    by_contra hlt
    push Not at hlt
    have hin := (filmFate_iff _ _ hbt _ _ _).mp hs ⟨e.val, by omega⟩
    have he' : LeavesThrough o.surface o.outside bot top f (fun e : Fin (N + 2) => z e) (fun e : Fin (N + 1) => kz e) ⟨e.val, by omega⟩ := he
    rcases hf with rfl | rfl
    · exact hin.1 he'
    · exact hin.2 he'
  have hRT : q.outR + q.outT + q.trapped ≤ q.enter * w N := by
    simp only [q, pathPhoton, smoothPhoton, filmPhotons]
    cases hf : filmFate o.surface o.outside bot top (fun e : Fin (N' + 2) => z e) (fun e : Fin (N' + 1) => kz e) with
    | reflected e =>
      have := (filmFate_iff _ _ hbt _ _ _).mp hf
      simp only [Fate.reflEvent, Fate.transEvent, Fate.lastEvent, valueAt, mul_zero, add_zero]
      exact mul_le_mul_of_nonneg_left (hw (late e _ this.1 (Or.inl rfl))) ok.enter.1
    | transmitted e =>
      have := (filmFate_iff _ _ hbt _ _ _).mp hf
      simp only [Fate.reflEvent, Fate.transEvent, Fate.lastEvent, valueAt, mul_zero, zero_add, add_zero]
      exact mul_le_mul_of_nonneg_left (hw (late e _ this.1 (Or.inr rfl))) ok.enter.1
    | trapped =>
      simp only [Fate.reflEvent, Fate.transEvent, Fate.lastEvent, valueAt, mul_zero, zero_add]
      exact mul_le_mul_of_nonneg_left (hw (by simpa using hN)) ok.enter.1
  have hR := mul_nonneg ok.outR.1 ok.escR.1
  have hT := mul_nonneg ok.outT.1 ok.escT.1
  have hR' : 0 ≤ q.outR * q.escR := hR
  have hT' : 0 ≤ q.outT * q.escT := hT
  linarith

end Prefix

/-! ## Means of photons that settle -/

section Means
variable {Ω : Type} [MeasurableSpace Ω] {P : Measure Ω} [IsProbabilityMeasure P]

theorem means_settle {p : ℕ → Ω → Photon} {q : Ω → Photon} (M : ∀ N, PhotonMeas (p N)) (ok : ∀ N ω, PhotonOK (p N ω))
    (hq : ∀ᵐ ω ∂P, ∀ᶠ N in atTop, p N ω = q ω) (hz : ∀ N, ∀ᵐ ω ∂P, p N ω = q ω ∨ ((p N ω).outR = 0 ∧ (p N ω).outT = 0)) :
    Tendsto (fun N => Photon.meanKnown P (p N)) atTop (𝓝 (Photon.meanKnown P q)) ∧
    Tendsto (fun N => Photon.meanTrapped P (p N)) atTop (𝓝 (Photon.meanTrapped P q)) ∧
    (Photon.meanKnown P q ≠ 0 → Tendsto (fun N => Photon.meanRefl P (p N)) atTop (𝓝 (Photon.meanRefl P q)) ∧
      Tendsto (fun N => Photon.meanTrans P (p N)) atTop (𝓝 (Photon.meanTrans P q))) := by
  have habs : ∀ {x : ℝ}, IsFraction x → |x| ≤ 1 := fun h => abs_le.mpr ⟨by linarith [h.1], h.2⟩
  have hmul : ∀ {x y : ℝ}, IsFraction x → IsFraction y → IsFraction (x * y) := fun hx hy =>
    ⟨mul_nonneg hx.1 hy.1, mul_le_one₀ hx.2 hy.1 hy.2⟩
  have hsub : ∀ {x : ℝ}, IsFraction x → IsFraction (1 - x) := fun hx => ⟨by linarith [hx.2], by linarith [hx.1]⟩
  have hite : ∀ {x : ℝ} (q : Prop), IsFraction x → IsFraction (if q then x else 0) := fun q hx => by
    split
    · exact hx
    · exact ⟨le_rfl, zero_le_one⟩
  have lim : ∀ (F : Photon → ℝ), (∀ N, Measurable fun ω => F (p N ω)) → (∀ N ω, IsFraction (F (p N ω))) →
      Tendsto (fun N => ∫ ω, F (p N ω) ∂P) atTop (𝓝 (∫ ω, F (q ω) ∂P)) := by
    intro F hF hb
    refine tendsto_integral_of_dominated_convergence (fun _ => 1) (fun N => (hF N).aestronglyMeasurable) (integrable_const _)
      (fun N => Eventually.of_forall fun ω => habs (hb N ω)) ?_
    filter_upwards [hq] with ω hω
    exact tendsto_const_nhds.congr' (hω.mono fun N hN => (congrArg F hN).symm)
  have l1 : Tendsto (fun N => Photon.meanEscR P (p N)) atTop (𝓝 (Photon.meanEscR P q)) :=
    lim (fun x => x.outR * x.escR) (fun N => (M N).outR.mul (M N).escR) fun N ω => hmul (ok N ω).outR (ok N ω).escR
  have l2 : Tendsto (fun N => Photon.meanEscT P (p N)) atTop (𝓝 (Photon.meanEscT P q)) :=
    lim (fun x => x.outT * x.escT) (fun N => (M N).outT.mul (M N).escT) fun N ω => hmul (ok N ω).outT (ok N ω).escT
  have l3 : Tendsto (fun N => Photon.meanSeenR P (p N)) atTop (𝓝 (Photon.meanSeenR P q)) :=
    lim (fun x => if x.seenR then x.outR * x.escR else 0) (fun N => Measurable.ite (M N).seenR ((M N).outR.mul (M N).escR) measurable_const)
      fun N ω => hite _ (hmul (ok N ω).outR (ok N ω).escR)
  have l4 : Tendsto (fun N => Photon.meanSeenT P (p N)) atTop (𝓝 (Photon.meanSeenT P q)) :=
    lim (fun x => if x.seenT then x.outT * x.escT else 0) (fun N => Measurable.ite (M N).seenT ((M N).outT.mul (M N).escT) measurable_const)
      fun N ω => hite _ (hmul (ok N ω).outT (ok N ω).escT)
  have l5 : Tendsto (fun N => Photon.meanInc P (p N)) atTop (𝓝 (Photon.meanInc P q)) :=
    lim (fun x => if x.seenInc then 1 - x.enter else 0) (fun N => Measurable.ite (M N).seenInc (measurable_const.sub (M N).enter) measurable_const)
      fun N ω => hite _ (hsub (ok N ω).enter)
  have l6 : Tendsto (fun N => Photon.meanBackR P (p N)) atTop (𝓝 (Photon.meanBackR P q)) :=
    lim (fun x => x.outR * (1 - x.escR)) (fun N => (M N).outR.mul (measurable_const.sub (M N).escR))
      fun N ω => hmul (ok N ω).outR (hsub (ok N ω).escR)
  have l7 : Tendsto (fun N => Photon.meanBackT P (p N)) atTop (𝓝 (Photon.meanBackT P q)) :=
    lim (fun x => x.outT * (1 - x.escT)) (fun N => (M N).outT.mul (measurable_const.sub (M N).escT))
      fun N ω => hmul (ok N ω).outT (hsub (ok N ω).escT)
  have l8 : Tendsto (fun N => Photon.meanTrapped P (p N)) atTop (𝓝 (Photon.meanTrapped P q)) :=
    lim (fun x => x.trapped) (fun N => (M N).trapped) fun N ω => (ok N ω).trapped
  have l9 : Tendsto (fun N => ∫ ω, ((p N ω).enter - (p N ω).outR - (p N ω).outT - (p N ω).trapped) ∂P) atTop
      (𝓝 (∫ ω, ((q ω).enter - (q ω).outR - (q ω).outT - (q ω).trapped) ∂P)) :=
    lim (fun x => x.enter - x.outR - x.outT - x.trapped) (fun N => (((M N).enter.sub (M N).outR).sub (M N).outT).sub (M N).trapped) fun N ω =>
      ⟨by linarith [(ok N ω).sum], by linarith [(ok N ω).enter.2, (ok N ω).outR.1, (ok N ω).outT.1, (ok N ω).trapped.1]⟩
  have lk : Tendsto (fun N => Photon.meanKnown P (p N)) atTop (𝓝 (Photon.meanKnown P q)) := (l9.add l1).add l2
  refine ⟨lk, l8, fun hk => ?_⟩
  -- nothing escapes earlier if nothing escapes in the end
  have okq : ∀ᵐ ω ∂P, PhotonOK (q ω) := by
    filter_upwards [hq] with ω hω
    obtain ⟨N, hN⟩ := hω.exists
    exact hN ▸ ok N ω
  have below : ∀ (F : Photon → ℝ) (N : ℕ), (∀ N ω, (p N ω).outR = 0 ∧ (p N ω).outT = 0 → F (p N ω) = 0) → (∀ x, PhotonOK x → IsFraction (F x)) →
      (∀ N, Measurable fun ω => F (p N ω)) → ∫ ω, F (q ω) ∂P = 0 → ∫ ω, F (p N ω) ∂P = 0 := by
    intro F N h0 hF hm hq0
    have hb : ∀ᵐ ω ∂P, F (p N ω) ≤ F (q ω) := by
      filter_upwards [hz N, okq] with ω hω h1
      rcases hω with h | h
      · rw [h]
      · rw [h0 N ω h]; exact (hF _ h1).1
    have hmq : AEStronglyMeasurable (fun ω => F (q ω)) P :=
      aestronglyMeasurable_of_tendsto_ae (u := atTop) (f := fun N ω => F (p N ω)) (fun N => (hm N).aestronglyMeasurable)
        (by filter_upwards [hq] with ω hω; exact tendsto_const_nhds.congr' (hω.mono fun N hN => (congrArg F hN).symm))
    refine le_antisymm ?_ (integral_nonneg fun ω => (hF _ (ok N ω)).1)
    rw [← hq0]
    exact integral_mono_ae (Integrable.of_bound (hm N).aestronglyMeasurable 1 (Eventually.of_forall fun ω => habs (hF _ (ok N ω))))
      (Integrable.of_bound hmq 1 (okq.mono fun ω h => habs (hF _ h))) hb
  have share : ∀ {s e : ℕ → ℝ} {s' e' : ℝ}, Tendsto s atTop (𝓝 s') → Tendsto e atTop (𝓝 e') → (e' = 0 → ∀ N, e N = 0) →
      Tendsto (fun N => Photon.meanShare (s N) (e N)) atTop (𝓝 (Photon.meanShare s' e')) := by
    intro s e s' e' hs he h0
    by_cases h : e' = 0
    · have : ∀ N, Photon.meanShare (s N) (e N) = 1 := fun N => by rw [Photon.meanShare, if_pos (h0 h N)]
      simp only [this]
      rw [Photon.meanShare, if_pos h]
      exact tendsto_const_nhds
    · rw [Photon.meanShare, if_neg h]
      refine (hs.div he h).congr' ?_
      filter_upwards [he.eventually_ne h] with N hN
      rw [Photon.meanShare, if_neg hN]
      rfl
  have hR0 := below (fun x => x.outR * x.escR)
  have hT0 := below (fun x => x.outT * x.escT)
  have sR := share l3 l1 fun h N => hR0 N (fun N ω h => by simp only [h.1, zero_mul]) (fun x hx => hmul hx.outR hx.escR)
    (fun N => (M N).outR.mul (M N).escR) h
  have sT := share l4 l2 fun h N => hT0 N (fun N ω h => by simp only [h.2, zero_mul]) (fun x hx => hmul hx.outT hx.escT)
    (fun N => (M N).outT.mul (M N).escT) h
  refine ⟨(l3.add l5).add ((((l6.mul (l1.div lk hk)).add (l7.mul (l2.div lk hk))).add (l8.div_const 2)).mul sR),
    l4.add ((((l7.mul (l1.div lk hk)).add (l6.mul (l2.div lk hk))).add (l8.div_const 2)).mul sT)⟩

end Means

/-! ## The photons of a simulation leave -/

section Stream
variable {n : ℕ} {Ω : Type} [MeasurableSpace Ω] {P : Measure Ω} [IsProbabilityMeasure P] {U : ℕ × Draw → Ω → ℝ}
  {θ0 θ1 φ0 φ1 : ℝ} {phase : Fin (n + 1) → ℝ} {m mu mua : ℝ} {a : (nt : ℕ) → Ω → Args (nt + 1)}
  {S : (nt : ℕ) → Ω → Sampling (nt + 1) (n + 1)} {d : DetArgs}

/-- the draws of the first photon beyond those of the beam, event by event -/
private def evDraw (e : ℕ) (i : Fin 3) : Draw := match i with | 0 => .angle e | 1 => .azimuth e | 2 => .step e

private theorem evDraw_inj : Function.Injective fun x : ℕ × Fin 3 => evDraw x.1 x.2 := by
  rintro ⟨e, i⟩ ⟨e', i'⟩ h
  fin_cases i <;> fin_cases i' <;> simp_all [evDraw]

omit [IsProbabilityMeasure P] in
private theorem beam_indep (hU : UniformDraws P U) (j : ℕ) {k : Ω → ℝ × ℝ × ℝ} {g : ℝ × ℝ → ℝ × ℝ × ℝ} (hg : Measurable g)
    (hk : k = fun ω => g (U (j, .beamTheta) ω, U (j, .beamPhi) ω)) :
    IndepFun k (fun ω (e : ℕ) (i : Fin 3) => U (j, evDraw e i) ω) P := by
  have h := indep_iSup_of_disjoint (m := fun x => MeasurableSpace.comap (U x) inferInstance) (μ := P)
    (fun x => (hU.meas x).comap_le) hU.indep.iIndep (S := {(j, .beamTheta), (j, .beamPhi)}) (T := Set.range fun x : ℕ × Fin 3 => (j, evDraw x.1 x.2))
    (by
      rw [Set.disjoint_left]
      rintro x hx ⟨⟨e, i⟩, rfl⟩
      fin_cases i <;> simp [evDraw] at hx)
  rw [IndepFun_iff_Indep]
  have comp : ∀ (A : Set (ℕ × Draw)) x, x ∈ A → @Measurable _ _ (⨆ i ∈ A, MeasurableSpace.comap (U i) inferInstance) _ (U x) := by
    intro A x hx
    rw [measurable_iff_comap_le]
    exact le_iSup₂_of_le x hx le_rfl
  refine indep_of_indep_of_le_left (indep_of_indep_of_le_right h ?_) ?_
  · rw [← measurable_iff_comap_le]
    exact @measurable_pi_lambda _ _ _ (_) _ _ fun e => @measurable_pi_lambda _ _ _ (_) _ _ fun i => comp _ _ ⟨(e, i), rfl⟩
  · rw [← measurable_iff_comap_le, hk]
    exact hg.comp (@Measurable.prodMk _ _ _ _ _ (_) _ _ (comp _ _ (Or.inl rfl)) (comp _ _ (Or.inr rfl)))

/-- heights of a photon -/
noncomputable def Zc (θ0 θ1 φ0 φ1 : ℝ) (phase : Fin (n + 1) → ℝ) (m mu : ℝ) (d : DetArgs) (x : Draw → ℝ) (e : ℕ) : ℝ :=
  colZ θ0 θ1 φ0 φ1 phase m mu d.n_medium d.n_sample x e
/-- direction cosines of a photon -/
noncomputable def Kc (θ0 θ1 φ0 φ1 : ℝ) (phase : Fin (n + 1) → ℝ) (m : ℝ) (d : DetArgs) (x : Draw → ℝ) (e : ℕ) : ℝ :=
  (colK θ0 θ1 φ0 φ1 phase m d.n_medium d.n_sample x e).z

omit [MeasurableSpace Ω] in
theorem sim_path (R : StreamRun U θ0 θ1 φ0 φ1 phase m mu mua a S) {nt : ℕ} {ω : Ω} (H : FilmRun (a nt ω) (S nt ω) d) {nev : ℕ}
    {t : Trajs (nt + 1)} (ht : simulate (nev + 1) (a nt ω) (S nt ω) = .ok t) (j : Fin (nt + 1)) :
    simPhoton nev d t j = pathPhoton d.optics.medium d.z_low d.thickness (Zc θ0 θ1 φ0 φ1 phase m mu d (group U j ω))
      (Kc θ0 θ1 φ0 φ1 phase m d (group U j ω)) (colW mu mua (group U j ω)) nev := by
  obtain ⟨h1, h2, h3⟩ := column R H ht j
  unfold simPhoton pathPhoton
  congr 1
  · funext e; exact h2 e (by omega)
  · funext e; rw [h1 e (by omega)]; rfl
  · funext e; exact h3 e

private theorem tir_eq (hfine : d.fine_roughness = 0) : d.optics.n_tir = d.n_sample := by
  show Weights.nTir _ _ _ _ = _
  unfold Weights.nTir
  rw [hfine]
  cases d.n_particle <;> cases d.n_matrix <;> simp

theorem stream_stuck (hU : UniformDraws P U) (R : StreamRun U θ0 θ1 φ0 φ1 phase m mu mua a S) (H : ∀ nt ω, FilmRun (a nt ω) (S nt ω) d)
    (hfine : d.fine_roughness = 0) (hth : d.z_low < d.thickness) :
    ∃ A r : ℝ, 0 ≤ A ∧ 0 < r ∧ r < 1 ∧ ∀ nev j, P {ω | stillIn d.optics.medium d.z_low d.thickness
      (Zc θ0 θ1 φ0 φ1 phase m mu d (group U j ω)) (Kc θ0 θ1 φ0 φ1 phase m d (group U j ω)) nev} ≤ ENNReal.ofReal (A * r ^ nev) := by
  obtain ⟨ω0⟩ : Nonempty Ω := by
    by_contra h
    rw [not_nonempty_iff] at h
    have := (inferInstance : IsProbabilityMeasure P).measure_univ
    rw [Set.eq_empty_of_isEmpty (Set.univ : Set Ω), measure_empty] at this
    exact zero_ne_one this
  have H0 := H 0 ω0
  have hnm := H0.medium_pos
  have hns : 0 < d.n_sample := hnm.trans_le H0.not_denser
  have htir := tir_eq hfine
  have hle : d.n_medium ≤ d.optics.n_tir := by rw [htir]; exact H0.not_denser
  have hmu : 0 < mu := (R.mu_scat 0 ω0) ▸ H0.mu_scat
  have hp : ∀ i, 0 ≤ phase i := by have := H0.phase; rwa [R.phase] at this
  have hm : 0 ≤ m ∧ m ≤ Real.pi := by have := H0.min_angle; rwa [R.min_angle] at this
  have hpos : 0 < ∑ i, solidWeight phase m i := by have := H0.phase_pos; rwa [R.phase, R.min_angle] at this
  obtain ⟨θ, hθ, hTθ⟩ := sampled_angle hp hm hpos
  set T : ℝ → ℝ := fun v => linspace m Real.pi (n + 1) (choiceIndex (probTheta phase m) v) with hTdef
  have hT : Measurable T :=
    (measurable_of_finite fun k : Fin (n + 1) => linspace m Real.pi (n + 1) k).comp (measurable_choiceIndex _)
  set κ := max (Real.sqrt (1 - (d.n_medium / d.optics.n_tir) ^ 2)) (1 / 2) with hκ
  set c := 1 - Real.exp (-(mu * (2 * (d.thickness - d.z_low)))) with hc
  have hκ1 : κ < 1 := by
    refine max_lt ?_ (by norm_num)
    rw [Real.sqrt_lt' one_pos]
    have : 0 < (d.n_medium / d.optics.n_tir) ^ 2 := by
      have := hnm.trans_le hle
      positivity
    linarith
  have hc1 : c < 1 := by have := Real.exp_pos (-(mu * (2 * (d.thickness - d.z_low)))); linarith
  obtain ⟨A, r, hA, hr0, hr1, hbound⟩ := trapped_rate hT hTθ hκ1 hc1 hθ
  refine ⟨A, r, hA, hr0, hr1, fun nev j => ?_⟩
  let D : Ω → ℕ → Fin 3 → ℝ := fun ω e i => U (j, evDraw e i) ω
  have hDm : Measurable D := measurable_pi_lambda _ fun e => measurable_pi_lambda _ fun i => hU.meas _
  have hlaw : P.map D = Measure.infinitePi fun _ : ℕ => draws3 := by
    let V : ℕ × Fin 3 → Ω → ℝ := fun x => U (j, evDraw x.1 x.2)
    have hV : UniformDraws P V := by
      refine ⟨fun _ => hU.meas _, fun _ => hU.law _, hU.indep.precomp (g := fun x : ℕ × Fin 3 => (j, evDraw x.1 x.2)) ?_⟩
      intro x y h
      exact evDraw_inj (Prod.mk.inj h).2
    have e1 : P.map (fun ω x => V x ω) = Measure.infinitePi fun _ : ℕ × Fin 3 => unif := by
      rw [(iIndepFun_iff_map_fun_eq_infinitePi_map hV.meas).mp hV.indep]
      congr 1
      funext i
      exact hV.law i
    have e2 := Measure.infinitePi_map_curry (ι := ℕ) (κ := Fin 3) (fun _ _ => unif)
    rw [← e1, Measure.map_map (MeasurableEquiv.measurable _) (measurable_pi_lambda _ fun x => hV.meas x)] at e2
    exact e2
  -- the first direction
  let g : ℝ × ℝ → ℝ × ℝ × ℝ := fun u =>
    (d.n_medium / d.n_sample * Real.sin (uniform θ0 θ1 u.1) * Real.cos (uniform φ0 φ1 u.2),
      d.n_medium / d.n_sample * Real.sin (uniform θ0 θ1 u.1) * Real.sin (uniform φ0 φ1 u.2),
      Real.sqrt (1 - (d.n_medium / d.n_sample * Real.sin (uniform θ0 θ1 u.1)) ^ 2))
  have hgm : Measurable g := by
    simp only [g, uniform]
    fun_prop
  have hgS : ∀ u, g u ∈ sphereW := by
    intro u
    simp only [g, sphereW, Set.mem_ofPred_eq]
    have h1 : (d.n_medium / d.n_sample) ^ 2 ≤ 1 := by
      rw [sq_le_one_iff₀ (by positivity), div_le_one hns]
      exact H0.not_denser
    have h2 := Real.sin_sq_le_one (uniform θ0 θ1 u.1)
    rw [Real.sq_sqrt (by
      rw [mul_pow]
      nlinarith [sq_nonneg (d.n_medium / d.n_sample), sq_nonneg (Real.sin (uniform θ0 θ1 u.1))])]
    have := Real.sin_sq_add_cos_sq (uniform φ0 φ1 u.2)
    linear_combination (d.n_medium / d.n_sample * Real.sin (uniform θ0 θ1 u.1)) ^ 2 * this
  let k : Ω → ℝ × ℝ × ℝ := fun ω => g (U (j, .beamTheta) ω, U (j, .beamPhi) ω)
  have hkm : Measurable k := hgm.comp ((hU.meas _).prodMk (hU.meas _))
  have hind : IndepFun k D P := beam_indep hU j hgm rfl
  let B : Set ((ℝ × ℝ × ℝ) × (ℕ → Fin 3 → ℝ)) :=
    {y | noExit (stepW T) (exW κ c) nev (stepW T (y.2 0) y.1) fun i => y.2 (i + 1)}
  have hBm : MeasurableSet B := by
    refine (noExit_measurable (stepW_measurable hT) (exW_measurable κ c) nev).preimage
      (f := fun y : (ℝ × ℝ × ℝ) × (ℕ → Fin 3 → ℝ) => (stepW T (y.2 0) y.1, fun i => y.2 (i + 1))) ?_
    have h1 : Measurable fun y : (ℝ × ℝ × ℝ) × (ℕ → Fin 3 → ℝ) => (y.2 0, y.1) :=
      ((measurable_pi_apply 0).comp measurable_snd).prodMk measurable_fst
    exact ((stepW_measurable hT).comp h1).prodMk (measurable_pi_lambda _ fun i => (measurable_pi_apply (i + 1)).comp measurable_snd)
  have hsub : {ω | stillIn d.optics.medium d.z_low d.thickness (Zc θ0 θ1 φ0 φ1 phase m mu d (group U j ω))
      (Kc θ0 θ1 φ0 φ1 phase m d (group U j ω)) nev} ⊆ (fun ω => (k ω, D ω)) ⁻¹' B := by
    intro ω hω
    obtain ⟨t, ht, hdir, -⟩ := simulate_facts (H j ω) nev
    obtain ⟨h1, h2, h3⟩ := column R (H j ω) ht (Fin.last j)
    simp only [Fin.val_last] at h1 h2
    have hkz : ∀ i j', i < nev + 1 → |(t.direction i j').z| ≤ 1 := by
      intro i j' hi
      have := hdir i j' hi
      simp only [V3.normSq, V3.dot] at this
      rw [← sq_le_one_iff_abs_le_one]
      nlinarith [mul_self_nonneg (t.direction i j').x, mul_self_nonneg (t.direction i j').y]
    have hturn : ∀ e, e < nev → coords (t.direction (e + 1) (Fin.last j)) = stepW T (D ω e) (coords (t.direction e (Fin.last j))) := by
      intro e he
      rw [h1 (e + 1) (by omega), h1 e (by omega)]
      rfl
    have hst : stuckEvent nev d t (Fin.last j) ≠ 0 := by
      have hf := (fate_numbers (nev := nev) (fun e j => (t.position e j).z) (fun e j => (t.direction e j).z)
        (fun e j => hkz e j e.isLt) (hnm.trans_le hle) hnm hle hth
        (fate := fun j => filmFate d.optics.n_tir d.n_medium d.z_low d.thickness (fun e => (t.position e j).z) (fun e => (t.direction e j).z))
        (fun j => (filmFate_iff _ _ hth _ _ _).mp rfl)).2.2 (Fin.last j)
      have e1 : filmFate d.optics.n_tir d.n_medium d.z_low d.thickness (fun e : Fin (nev + 2) => (t.position e (Fin.last j)).z)
          (fun e : Fin (nev + 1) => (t.direction e (Fin.last j)).z) = .trapped := by
        rw [← show _ = Fate.trapped from hω]
        congr 1
        · funext e; exact h2 e (by omega)
        · funext e; rw [h1 e (by omega)]; rfl
      rw [e1] at hf
      unfold stuckEvent
      rw [hf]
      simp [Fate.lastEvent]
    show noExit _ _ _ _ _
    cases nev with
    | zero => trivial
    | succ nev =>
      have := noExit_of_stuck hnm hle hth hkz hmu (T := T) (D ω) (fun e => by
        have := ((H j ω).rand_step e (Fin.last j)).2
        rw [R.rand_step] at this
        exact this) hturn (fun e he => ?_) hst (nev + 1) 1 le_rfl (by omega)
      · rw [hturn 0 (Nat.succ_pos nev), h1 0 (Nat.zero_le _)] at this
        have e : (fun i => D ω (i + 1)) = fun i => D ω (1 + i) := by
          funext i; rw [add_comm]
        rw [e]
        exact this
      · obtain ⟨p0, hp0, -⟩ := init_facts (H j ω)
        have hmu' : 0 < (S j ω).mu_scat := by rw [R.mu_scat]; exact hmu
        have := (sim_walk hp0 ht hmu' (Fin.last j)).2.2 e he
        rw [R.mu_scat, R.rand_step] at this
        exact this
  refine (measure_mono hsub).trans ?_
  rw [← Measure.map_apply (hkm.prodMk hDm) hBm, (indepFun_iff_map_prod_eq_prod_map_map hkm.aemeasurable hDm.aemeasurable).mp hind,
    Measure.prod_apply hBm]
  have : IsProbabilityMeasure (P.map k) := Measure.isProbabilityMeasure_map hkm.aemeasurable
  have hkS : ∀ᵐ x ∂(P.map k), x ∈ sphereW := by
    exact (ae_map_iff hkm.aemeasurable (p := fun x => x ∈ sphereW) sphereW_compact.isClosed.measurableSet).mpr
      (Eventually.of_forall fun ω => hgS _)
  calc _ ≤ ∫⁻ _, ENNReal.ofReal (A * r ^ nev) ∂(P.map k) := by
        refine lintegral_mono_ae ?_
        filter_upwards [hkS] with x hx
        have hBx : MeasurableSet (Prod.mk x ⁻¹' B) := measurable_prodMk_left hBm
        rw [hlaw, stream_split draws3 hBx]
        calc _ = ∫⁻ u, trapped draws3 (stepW T) (exW κ c) nev (stepW T u x) ∂draws3 := rfl
          _ ≤ ∫⁻ _, ENNReal.ofReal (A * r ^ nev) ∂draws3 := lintegral_mono fun u => hbound nev _ (stepW_sphere T u _ hx)
          _ = _ := by simp
    _ = _ := by simp

theorem stream_leaves (hU : UniformDraws P U) (R : StreamRun U θ0 θ1 φ0 φ1 phase m mu mua a S) (H : ∀ nt ω, FilmRun (a nt ω) (S nt ω) d)
    (hfine : d.fine_roughness = 0) (hth : d.z_low < d.thickness) :
    ∀ᵐ ω ∂P, ∀ j, ∃ N, ¬ stillIn d.optics.medium d.z_low d.thickness (Zc θ0 θ1 φ0 φ1 phase m mu d (group U j ω))
      (Kc θ0 θ1 φ0 φ1 phase m d (group U j ω)) N := by
  obtain ⟨A, r, hA, hr0, hr1, hb⟩ := stream_stuck hU R H hfine hth
  rw [ae_all_iff]
  intro j
  rw [ae_iff]
  have h0 : Tendsto (fun nev : ℕ => ENNReal.ofReal (A * r ^ nev)) atTop (𝓝 0) := by
    have := (tendsto_pow_atTop_nhds_zero_of_lt_one hr0.le hr1).const_mul A
    rw [mul_zero] at this
    have := ENNReal.tendsto_ofReal this
    rwa [ENNReal.ofReal_zero] at this
  refine le_antisymm (ge_of_tendsto' h0 fun nev => (measure_mono fun ω hω => ?_).trans (hb nev j)) zero_le
  by_contra h
  exact hω ⟨nev, h⟩

/-- either the photon has left after `N + 1` events, or it never leaves -/
private def decided (o : FilmOptics) (bot top : ℝ) (z kz : ℕ → ℝ) (N : ℕ) : Prop :=
  ¬ stillIn o bot top z kz N ∨ ∀ N, stillIn o bot top z kz N

private theorem decided_ex (o : FilmOptics) (bot top : ℝ) (z kz : ℕ → ℝ) : ∃ N, decided o bot top z kz N := by
  by_cases h : ∃ N, ¬ stillIn o bot top z kz N
  · exact h.imp fun _ => Or.inl
  · push Not at h
    exact ⟨0, Or.inr h⟩

/-- the photon followed until it leaves -/
private noncomputable def lastPhoton (o : FilmOptics) (bot top : ℝ) (z kz w : ℕ → ℝ) : Photon :=
  pathPhoton o bot top z kz w (Nat.find (decided_ex o bot top z kz))

private theorem last_eventually {o : FilmOptics} {bot top : ℝ} (hbt : bot < top) {z kz w : ℕ → ℝ} (h : ∃ N, ¬ stillIn o bot top z kz N) :
    (∀ N, ¬ stillIn o bot top z kz N → pathPhoton o bot top z kz w N = lastPhoton o bot top z kz w) ∧
    (lastPhoton o bot top z kz w).trapped = 0 := by
  have hs := Nat.find_spec (decided_ex o bot top z kz)
  have hn : ¬ stillIn o bot top z kz (Nat.find (decided_ex o bot top z kz)) := by
    rcases hs with hs | hs
    · exact hs
    · obtain ⟨N, hN⟩ := h; exact absurd (hs N) hN
  refine ⟨fun N hN => ?_, photon_left hn⟩
  exact photon_prefix hbt (Nat.find_min' _ (Or.inl hN)) hn

private theorem last_meas {X : Type} [MeasurableSpace X] {o : FilmOptics} {bot top : ℝ} (h : bot < top) (ho : 0 < o.outside)
    {z kz w : X → ℕ → ℝ} (hz : ∀ e, Measurable fun x => z x e)
    (hk : ∀ e, Measurable fun x => kz x e) (hw : ∀ e, Measurable fun x => w x e) :
    PhotonMeas fun x => lastPhoton o bot top (z x) (kz x) (w x) := by
  have M : ∀ N, PhotonMeas fun x => pathPhoton o bot top (z x) (kz x) (w x) N := fun N =>
    smoothPhoton_meas h ho (fun e => hz e) (fun e => hk e) (fun e => hw e)
  have hs : ∀ N, MeasurableSet {x | stillIn o bot top (z x) (kz x) N} := by
    intro N
    have := fate_meas (nev := N + 1) o.surface o.outside bot top (z := fun x e => z x e) (kz := fun x e => kz x e) (fun e => hz e) (fun e => hk e) .trapped
    simpa only [stillIn, filmFate_iff _ _ h] using this
  have hd : ∀ N, MeasurableSet {x | decided o bot top (z x) (kz x) N} := by
    intro N
    refine (hs N).compl.union ?_
    have : {x | ∀ N, stillIn o bot top (z x) (kz x) N} = ⋂ N, {x | stillIn o bot top (z x) (kz x) N} := by ext; simp
    show MeasurableSet {x | ∀ N, stillIn o bot top (z x) (kz x) N}
    rw [this]
    exact MeasurableSet.iInter hs
  have hfind : ∀ (F : Photon → ℝ), (∀ N, Measurable fun x => F (pathPhoton o bot top (z x) (kz x) (w x) N)) →
      Measurable fun x => F (lastPhoton o bot top (z x) (kz x) (w x)) := fun F hF =>
    Measurable.find (f := fun N x => F (pathPhoton o bot top (z x) (kz x) (w x) N)) (p := fun N x => decided o bot top (z x) (kz x) N) hF hd
      fun x => decided_ex o bot top (z x) (kz x)
  have hset : ∀ (F : Photon → Prop), (∀ N, MeasurableSet {x | F (pathPhoton o bot top (z x) (kz x) (w x) N)}) →
      MeasurableSet {x | F (lastPhoton o bot top (z x) (kz x) (w x))} := by
    intro F hF
    have := hfind (fun y => if F y then 1 else 0) fun N => Measurable.ite (hF N) measurable_const measurable_const
    have h1 := this (measurableSet_singleton (1 : ℝ))
    have e : {x | F (lastPhoton o bot top (z x) (kz x) (w x))} = (fun x => if F (lastPhoton o bot top (z x) (kz x) (w x)) then (1 : ℝ) else 0) ⁻¹' {1} := by
      ext x
      simp
    rw [e]
    exact h1
  exact ⟨hfind _ fun N => (M N).enter, hfind _ fun N => (M N).outR, hfind _ fun N => (M N).outT, hfind _ fun N => (M N).trapped,
    hfind _ fun N => (M N).escR, hfind _ fun N => (M N).escT, hset _ fun N => (M N).seenR, hset _ fun N => (M N).seenT,
    hset _ fun N => (M N).seenInc⟩

omit [IsProbabilityMeasure P] in
/-- means depend on the photon only up to probability zero -/
private theorem means_congr {p q : Ω → Photon} (h : ∀ᵐ ω ∂P, p ω = q ω) :
    Photon.meanKnown P p = Photon.meanKnown P q ∧ Photon.meanRefl P p = Photon.meanRefl P q ∧ Photon.meanTrans P p = Photon.meanTrans P q ∧
    Photon.meanTrapped P p = Photon.meanTrapped P q := by
  have c : ∀ F : Photon → ℝ, ∫ ω, F (p ω) ∂P = ∫ ω, F (q ω) ∂P := fun F => integral_congr_ae (h.mono fun ω hω => congrArg F hω)
  have c1 : Photon.meanEscR P p = Photon.meanEscR P q := c fun x => x.outR * x.escR
  have c2 : Photon.meanEscT P p = Photon.meanEscT P q := c fun x => x.outT * x.escT
  have c3 : Photon.meanSeenR P p = Photon.meanSeenR P q := c fun x => if x.seenR then x.outR * x.escR else 0
  have c4 : Photon.meanSeenT P p = Photon.meanSeenT P q := c fun x => if x.seenT then x.outT * x.escT else 0
  have c5 : Photon.meanInc P p = Photon.meanInc P q := c fun x => if x.seenInc then 1 - x.enter else 0
  have c6 : Photon.meanBackR P p = Photon.meanBackR P q := c fun x => x.outR * (1 - x.escR)
  have c7 : Photon.meanBackT P p = Photon.meanBackT P q := c fun x => x.outT * (1 - x.escT)
  have c8 : Photon.meanTrapped P p = Photon.meanTrapped P q := c fun x => x.trapped
  have c9 := c fun x => x.enter - x.outR - x.outT - x.trapped
  have ck : Photon.meanKnown P p = Photon.meanKnown P q := by unfold Photon.meanKnown; rw [c9, c1, c2]
  exact ⟨ck, by unfold Photon.meanRefl; rw [c1, c2, c3, c5, c6, c7, c8, ck], by unfold Photon.meanTrans; rw [c1, c2, c4, c6, c7, c8, ck], c8⟩

end Stream

/-! ## The theorems -/

section Main
variable {n : ℕ} {Ω : Type} [MeasurableSpace Ω] (P : Measure Ω) [IsProbabilityMeasure P] (U : ℕ × Draw → Ω → ℝ)
    (hU : UniformDraws P U) {θ0 θ1 φ0 φ1 : ℝ} {phase : Fin (n + 1) → ℝ} {m mu mua : ℝ} (a : (nt : ℕ) → Ω → Args (nt + 1))
    (S : (nt : ℕ) → Ω → Sampling (nt + 1) (n + 1)) (d : DetArgs) (R : StreamRun U θ0 θ1 φ0 φ1 phase m mu mua a S)
    (H : ∀ nt ω, FilmRun (a nt ω) (S nt ω) d) (hfine : d.fine_roughness = 0) (hg : d.gonio = none) (hth : d.z_low < d.thickness)
    (t1 : ℕ → Ω → Trajs 1) (ht1 : ∀ nev ω, simulate (nev + 1) (a 0 ω) (S 0 ω) = .ok (t1 nev ω))
include hU R H hfine hg hth ht1

/-- C141.  **The light that does not leave disappears.**  A smooth film is simulated with more and more events per trajectory, with the same random
numbers.  With probability one a photon stops changing: from some number of events on, it is one and the same photon `q ω`, which has left the film.
The expected light still in the film falls at least geometrically with the number of events. -/
theorem C141_photon_settles :
    (∃ q : Ω → Photon, (∀ᵐ ω ∂P, ∃ N, ∀ nev, N ≤ nev → simPhoton nev d (t1 nev ω) 0 = q ω) ∧ ∀ᵐ ω ∂P, (q ω).trapped = 0) ∧
    ∃ A r : ℝ, 0 ≤ A ∧ 0 < r ∧ r < 1 ∧ ∀ nev, Photon.meanTrapped P (fun ω => simPhoton nev d (t1 nev ω) 0) ≤ A * r ^ nev := by
  have hp := fun nev ω => sim_path R (H 0 ω) (ht1 nev ω) 0
  constructor
  · refine ⟨fun ω => lastPhoton d.optics.medium d.z_low d.thickness (Zc θ0 θ1 φ0 φ1 phase m mu d (group U 0 ω))
      (Kc θ0 θ1 φ0 φ1 phase m d (group U 0 ω)) (colW mu mua (group U 0 ω)), ?_, ?_⟩
    · filter_upwards [stream_leaves hU R H hfine hth] with ω hω
      obtain ⟨N, hN⟩ := hω 0
      refine ⟨N, fun nev hnev => (hp nev ω).trans ?_⟩
      exact (last_eventually hth (hω 0)).1 nev fun h => hN (stillIn_anti hth hnev h)
    · filter_upwards [stream_leaves hU R H hfine hth] with ω hω
      exact (last_eventually hth (hω 0)).2
  · obtain ⟨A, r, hA, hr0, hr1, hb⟩ := stream_stuck hU R H hfine hth
    refine ⟨A, r, hA, hr0, hr1, fun nev => ?_⟩
    have hok : ∀ ω, PhotonOK (simPhoton nev d (t1 nev ω) 0) := fun ω => (run_photons (H 0 ω) (R.smooth 0 ω) hfine hg hth (ht1 nev ω)).1 0
    set B := {ω | stillIn d.optics.medium d.z_low d.thickness (Zc θ0 θ1 φ0 φ1 phase m mu d (group U 0 ω))
      (Kc θ0 θ1 φ0 φ1 phase m d (group U 0 ω)) nev} with hB
    have hmB : MeasurableSet (toMeasurable P B) := measurableSet_toMeasurable P B
    calc _ ≤ ∫ ω, (toMeasurable P B).indicator (fun _ => (1 : ℝ)) ω ∂P := by
          refine integral_mono_of_nonneg (Eventually.of_forall fun ω => (hok ω).trapped.1) ((integrable_const _).indicator hmB)
            (Eventually.of_forall fun ω => ?_)
          dsimp only
          by_cases h : ω ∈ B
          · rw [Set.indicator_of_mem (subset_toMeasurable P B h)]
            exact (hok ω).trapped.2
          · have h' : (simPhoton nev d (t1 nev ω) 0).trapped = 0 := by rw [hp nev ω]; exact photon_left h
            rw [h']
            exact Set.indicator_nonneg (fun _ _ => zero_le_one) _
      _ = P.real B := by
          rw [integral_indicator_const _ hmB, smul_eq_mul, mul_one, Measure.real, measure_toMeasurable, Measure.real]
      _ ≤ A * r ^ nev := ENNReal.toReal_le_of_le_ofReal (by positivity) (hb nev 0)

omit hfine hg ht1 in
private theorem sim_meas (nev : ℕ) {t : Ω → Trajs 1} (ht : ∀ ω, simulate (nev + 1) (a 0 ω) (S 0 ω) = .ok (t ω)) :
    PhotonMeas fun ω => simPhoton nev d (t ω) 0 := by
  obtain ⟨ω0⟩ : Nonempty Ω := by
    by_contra h
    rw [not_nonempty_iff] at h
    have := (inferInstance : IsProbabilityMeasure P).measure_univ
    rw [Set.eq_empty_of_isEmpty (Set.univ : Set Ω), measure_empty] at this
    exact zero_ne_one this
  obtain ⟨G, M, hG⟩ := photon_function R H hth nev ω0
  have hm := group_meas hU 0
  have e : (fun ω => simPhoton nev d (t ω) 0) = fun ω => G (group U 0 ω) := funext fun ω => hG 0 ω (t ω) (ht ω) 0
  rw [e]
  exact ⟨M.enter.comp hm, M.outR.comp hm, M.outT.comp hm, M.trapped.comp hm, M.escR.comp hm, M.escT.comp hm, M.seenR.preimage hm,
    M.seenT.preimage hm, M.seenInc.preimage hm⟩

omit [IsProbabilityMeasure P] hU hfine hg in
/-- the photon is the final one or has not left yet -/
private theorem settled_or_in {q : Ω → Photon} (hq : ∀ᵐ ω ∂P, ∃ N, ∀ nev, N ≤ nev → simPhoton nev d (t1 nev ω) 0 = q ω) (nev : ℕ) :
    ∀ᵐ ω ∂P, simPhoton nev d (t1 nev ω) 0 = q ω ∨
      ((simPhoton nev d (t1 nev ω) 0).outR = 0 ∧ (simPhoton nev d (t1 nev ω) 0).outT = 0) := by
  filter_upwards [hq] with ω ⟨N, hN⟩
  have hp := fun nev => sim_path R (H 0 ω) (ht1 nev ω) 0
  by_cases h : stillIn d.optics.medium d.z_low d.thickness (Zc θ0 θ1 φ0 φ1 phase m mu d (group U ((0 : Fin 1) : ℕ) ω))
      (Kc θ0 θ1 φ0 φ1 phase m d (group U ((0 : Fin 1) : ℕ) ω)) nev
  · right
    rw [hp nev]
    exact photon_stillIn h
  · left
    rw [← hN (max N nev) (le_max_left _ _), hp, hp]
    exact (photon_prefix hth (le_max_right _ _) h).symm

/-- C141.  **First trajectories, then events.**  If the expected light of known final state is not zero for the photon `q` that is followed until it
leaves, then for every tolerance there is a number of events beyond which, with probability one, reflectance and transmittance are within the tolerance
of the formula of the estimator for `q` from some number of trajectories on. -/
theorem C141_trajectories_then_events (q : Ω → Photon) (hq : ∀ᵐ ω ∂P, ∃ N, ∀ nev, N ≤ nev → simPhoton nev d (t1 nev ω) 0 = q ω)
    (hk : Photon.meanKnown P q ≠ 0) (rt : ℕ → (nt : ℕ) → Ω → Weights.RT (nt + 1))
    (hrt : ∀ nev nt ω, runFilm nev (a nt ω) (S nt ω) d = .ok (rt nev nt ω)) {ε : ℝ} (hε : 0 < ε) :
    ∃ N, ∀ nev, N ≤ nev → ∀ᵐ ω ∂P, ∃ M, ∀ nt, M ≤ nt → ∃ r t, (rt nev nt ω).R = fin r ∧ (rt nev nt ω).T = fin t ∧
      |r - Photon.meanRefl P q| < ε ∧ |t - Photon.meanTrans P q| < ε := by
  have hok : ∀ nev ω, PhotonOK (simPhoton nev d (t1 nev ω) 0) := fun nev ω =>
    (run_photons (H 0 ω) (R.smooth 0 ω) hfine hg hth (ht1 nev ω)).1 0
  obtain ⟨k1, -, k2⟩ := means_settle (P := P) (fun nev => sim_meas P U hU a S d R H hth nev (ht1 nev)) hok
    (hq.mono fun ω h => eventually_atTop.mpr h) (settled_or_in P U a S d R H hth t1 ht1 hq)
  obtain ⟨l1, l2⟩ := k2 hk
  have hev := (k1.eventually_ne hk).and ((l1.eventually (gt_mem_nhds (lt_add_of_pos_right _ hε))).and
    ((l1.eventually (lt_mem_nhds (sub_lt_self _ hε))).and ((l2.eventually (gt_mem_nhds (lt_add_of_pos_right _ hε))).and
      (l2.eventually (lt_mem_nhds (sub_lt_self _ hε))))))
  obtain ⟨N, hN⟩ := eventually_atTop.mp hev
  refine ⟨N, fun nev hnev => ?_⟩
  obtain ⟨g1, g2, g3, g4, g5⟩ := hN nev hnev
  filter_upwards [(C137_converges P U hU a S d R H hfine hg hth nev (rt nev) (hrt nev) (t1 nev) (ht1 nev)).1 g1] with ω ⟨r, t, hrt', hr, ht⟩
  have e2 := hrt'.and ((hr.eventually (gt_mem_nhds g2)).and ((hr.eventually (lt_mem_nhds g3)).and ((ht.eventually (gt_mem_nhds g4)).and
    (ht.eventually (lt_mem_nhds g5)))))
  obtain ⟨M, hM⟩ := eventually_atTop.mp e2
  refine ⟨M, fun nt hnt => ?_⟩
  obtain ⟨⟨f1, f2⟩, f3, f4, f5, f6⟩ := hM nt hnt
  exact ⟨r nt, t nt, f1, f2, abs_lt.mpr ⟨by linarith, by linarith⟩, abs_lt.mpr ⟨by linarith, by linarith⟩⟩

/-- C141.  **First events, then trajectories: the same limit.**  With probability one the result settles at some number of events, for every number
of trajectories, and the settled results converge to the formula of the estimator for `q` when the number of trajectories grows; if the expected light of known
final state is zero for `q`, they are NaN. -/
theorem C141_events_then_trajectories (q : Ω → Photon) (hq : ∀ᵐ ω ∂P, ∃ N, ∀ nev, N ≤ nev → simPhoton nev d (t1 nev ω) 0 = q ω)
    (rt : ℕ → (nt : ℕ) → Ω → Weights.RT (nt + 1)) (hrt : ∀ nev nt ω, runFilm nev (a nt ω) (S nt ω) d = .ok (rt nev nt ω)) :
    (Photon.meanKnown P q ≠ 0 → ∀ᵐ ω ∂P, ∃ r t : ℕ → ℝ,
      (∃ M, ∀ nt, M ≤ nt → ∃ N, ∀ nev, N ≤ nev → (rt nev nt ω).R = fin (r nt) ∧ (rt nev nt ω).T = fin (t nt)) ∧
      Tendsto r atTop (𝓝 (Photon.meanRefl P q)) ∧ Tendsto t atTop (𝓝 (Photon.meanTrans P q))) ∧
    (Photon.meanKnown P q = 0 → ∀ᵐ ω ∂P, ∀ nt, ∃ N, ∀ nev, N ≤ nev → (rt nev nt ω).R = nan ∧ (rt nev nt ω).T = nan) := by
  obtain ⟨ω0⟩ : Nonempty Ω := by
    by_contra h
    rw [not_nonempty_iff] at h
    have := (inferInstance : IsProbabilityMeasure P).measure_univ
    rw [Set.eq_empty_of_isEmpty (Set.univ : Set Ω), measure_empty] at this
    exact zero_ne_one this
  let G : (Draw → ℝ) → Photon := fun x => lastPhoton d.optics.medium d.z_low d.thickness (Zc θ0 θ1 φ0 φ1 phase m mu d x)
      (Kc θ0 θ1 φ0 φ1 phase m d x) (colW mu mua x)
  have M : PhotonMeas G := last_meas hth (H 0 ω0).medium_pos (fun e => colZ_meas _ _ _ _ _ _ _ _ _ e)
    (fun e => (colK_meas _ _ _ _ _ _ _ _ e).2.2) (fun e => colW_meas _ _ e)
  choose t ht using fun nev nt ω => simulate_facts (H nt ω) nev
  have hsim : ∀ nev nt ω, simulate (nev + 1) (a nt ω) (S nt ω) = .ok (t nev nt ω) := fun nev nt ω => (ht nev nt ω).1
  have hok : ∀ ω, PhotonOK (G (group U 0 ω)) := by
    intro ω
    have := (run_photons (H 0 ω) (R.smooth 0 ω) hfine hg hth (ht1 (Nat.find (decided_ex d.optics.medium d.z_low d.thickness
      (Zc θ0 θ1 φ0 φ1 phase m mu d (group U 0 ω)) (Kc θ0 θ1 φ0 φ1 phase m d (group U 0 ω)))) ω)).1 0
    rw [sim_path R (H 0 ω) (ht1 _ ω) 0] at this
    exact this
  have hGq : ∀ᵐ ω ∂P, q ω = G (group U 0 ω) := by
    filter_upwards [hq, stream_leaves hU R H hfine hth] with ω ⟨N, hN⟩ hω
    obtain ⟨N', hN'⟩ := hω 0
    rw [← hN (max N N') (le_max_left _ _), sim_path R (H 0 ω) (ht1 _ ω) 0]
    exact (last_eventually hth (hω 0)).1 _ fun h => hN' (stillIn_anti hth (le_max_right _ _) h)
  obtain ⟨c1, c2, c3, -⟩ := means_congr hGq
  let Rl : ℕ → Ω → XF := fun nt ω => if Photon.known (fun j : Fin (nt + 1) => G (group U j ω)) = 0 then nan else
    fin (∑ j, Photon.refl (fun j : Fin (nt + 1) => G (group U j ω)) j)
  let Tl : ℕ → Ω → XF := fun nt ω => if Photon.known (fun j : Fin (nt + 1) => G (group U j ω)) = 0 then nan else
    fin (∑ j, Photon.trans (fun j : Fin (nt + 1) => G (group U j ω)) j)
  have core := consistency_core hU M hok (p := fun ω => G (group U 0 ω)) (fun _ => rfl) Rl Tl (Eventually.of_forall fun ω nt => by
    by_cases h : Photon.known (fun j : Fin (nt + 1) => G (group U j ω)) = 0
    · exact Or.inl ⟨h, if_pos h, if_pos h⟩
    · exact Or.inr ⟨h, if_neg h, if_neg h⟩)
  have settle : ∀ᵐ ω ∂P, ∀ nt, ∃ N, ∀ nev, N ≤ nev → (rt nev nt ω).R = Rl nt ω ∧ (rt nev nt ω).T = Tl nt ω := by
    filter_upwards [stream_leaves hU R H hfine hth] with ω hω nt
    choose N hN using id hω
    refine ⟨Finset.univ.sup fun j : Fin (nt + 1) => N j, fun nev hnev => ?_⟩
    have e : simPhoton nev d (t nev nt ω) = fun j : Fin (nt + 1) => G (group U j ω) := by
      funext j
      rw [sim_path R (H nt ω) (hsim nev nt ω) j]
      refine (last_eventually hth (hω j)).1 _ fun h => hN j (stillIn_anti hth ?_ h)
      exact (Finset.le_sup (f := fun j : Fin (nt + 1) => N j) (Finset.mem_univ j)).trans hnev
    obtain ⟨-, rt', hrt', h2⟩ := run_photons (H nt ω) (R.smooth nt ω) hfine hg hth (hsim nev nt ω)
    rw [hrt nev nt ω] at hrt'
    injection hrt' with hrt'
    subst hrt'
    rw [e] at h2
    rcases h2 with ⟨h, h3, h4⟩ | ⟨h, h3, h4⟩
    · exact ⟨h3.trans (if_pos h).symm, h4.trans (if_pos h).symm⟩
    · exact ⟨h3.trans (if_neg h).symm, h4.trans (if_neg h).symm⟩
  rw [c1, c2, c3]
  refine ⟨fun hk => ?_, fun hk => ?_⟩
  · filter_upwards [core.1 hk, settle] with ω ⟨r, t, h1, h2, h3⟩ hs
    obtain ⟨K, hK⟩ := eventually_atTop.mp h1
    refine ⟨r, t, ⟨K, fun nt hnt => ?_⟩, h2, h3⟩
    obtain ⟨N, hN⟩ := hs nt
    refine ⟨N, fun nev hnev => ?_⟩
    rw [(hN nev hnev).1, (hN nev hnev).2]
    exact hK nt hnt
  · filter_upwards [core.2 hk, settle] with ω h1 hs nt
    obtain ⟨N, hN⟩ := hs nt
    refine ⟨N, fun nev hnev => ?_⟩
    rw [(hN nev hnev).1, (hN nev hnev).2]
    exact h1 nt

/-- C141: the limits are fractions with sum at most 1, and 1 if nothing is absorbed and all angles are detected; no trapped light enters them. -/
theorem C141_limit_values (q : Ω → Photon) (hq : ∀ᵐ ω ∂P, ∃ N, ∀ nev, N ≤ nev → simPhoton nev d (t1 nev ω) 0 = q ω)
    (hk : Photon.meanKnown P q ≠ 0) :
    0 ≤ Photon.meanRefl P q ∧ 0 ≤ Photon.meanTrans P q ∧ Photon.meanRefl P q + Photon.meanTrans P q ≤ 1 ∧
    (mua = 0 → d.detection_angle = Real.pi / 2 → Photon.meanRefl P q + Photon.meanTrans P q = 1) ∧ Photon.meanTrapped P q = 0 := by
  have hok : ∀ nev ω, PhotonOK (simPhoton nev d (t1 nev ω) 0) := fun nev ω =>
    (run_photons (H 0 ω) (R.smooth 0 ω) hfine hg hth (ht1 nev ω)).1 0
  obtain ⟨k1, k3, k2⟩ := means_settle (P := P) (fun nev => sim_meas P U hU a S d R H hth nev (ht1 nev)) hok
    (hq.mono fun ω h => eventually_atTop.mpr h) (settled_or_in P U a S d R H hth t1 ht1 hq)
  obtain ⟨l1, l2⟩ := k2 hk
  have hb := (k1.eventually_ne hk).mono fun nev h =>
    C137_limit_fractions P U hU a S d R H hfine hg hth nev (t1 nev) (ht1 nev) h
  obtain ⟨A, r, hA, hr0, hr1, hbd⟩ := (C141_photon_settles P U hU a S d R H hfine hg hth t1 ht1).2
  have h0 : Tendsto (fun nev : ℕ => A * r ^ nev) atTop (𝓝 0) := by
    have := (tendsto_pow_atTop_nhds_zero_of_lt_one hr0.le hr1).const_mul A
    rwa [mul_zero] at this
  refine ⟨ge_of_tendsto l1 (hb.mono fun _ h => h.1), ge_of_tendsto l2 (hb.mono fun _ h => h.2.1),
    le_of_tendsto (l1.add l2) (hb.mono fun _ h => h.2.2.1), fun h0 hdet => ?_, ?_⟩
  · exact tendsto_nhds_unique (l1.add l2) (tendsto_const_nhds.congr' (hb.mono fun _ h => (h.2.2.2 h0 hdet).symm))
  · refine tendsto_nhds_unique k3 (squeeze_zero (fun nev => integral_nonneg fun ω => (hok nev ω).trapped.1) hbd h0)

omit [MeasurableSpace Ω] [IsProbabilityMeasure P] hU hfine hg hth ht1 in
private theorem weight_anti (ω : Ω) (j : ℕ) : Antitone (colW mu mua (group U j ω)) := by
  have hmu : 0 < mu := (R.mu_scat 0 ω) ▸ (H 0 ω).mu_scat
  have hmua : 0 ≤ mua := (R.mu_abs 0 ω) ▸ (H 0 ω).mu_abs
  refine antitone_nat_of_succ_le fun e => ?_
  unfold colW
  rw [Real.exp_le_exp]
  have hS : 0 ≤ colS mu (group U j ω) (e + 1) := by
    have this : 0 ≤ U (j, .step (e + 1)) ω ∧ U (j, .step (e + 1)) ω < 1 := by
      have h := (H j ω).rand_step (e + 1) (Fin.last j)
      rw [R.rand_step] at h
      exact h
    refine div_nonneg (neg_nonneg.mpr (Real.log_nonpos ?_ ?_)) hmu.le
    · show 0 ≤ 1 - U (j, .step (e + 1)) ω; exact (by linarith [this.2])
    · show 1 - U (j, .step (e + 1)) ω ≤ 1; exact (by linarith [this.1])
  have e1 : cumsum (fun e => colS mu (group U j ω) e) (e + 1) = cumsum (fun e => colS mu (group U j ω) e) e + colS mu (group U j ω) (e + 1) := rfl
  rw [e1, mul_add]
  have := mul_nonneg hmua hS
  linarith

/-- C141: the expected light of known final state does not decrease with the number of events, and is not larger than that of `q`.  So it is
not zero for `q` if it is not zero for some number of events (as in C137). -/
theorem C141_known_grows (q : Ω → Photon) (hq : ∀ᵐ ω ∂P, ∃ N, ∀ nev, N ≤ nev → simPhoton nev d (t1 nev ω) 0 = q ω) :
    Monotone (fun nev => Photon.meanKnown P (fun ω => simPhoton nev d (t1 nev ω) 0)) ∧
    ∀ nev, Photon.meanKnown P (fun ω => simPhoton nev d (t1 nev ω) 0) ≤ Photon.meanKnown P q := by
  have hok : ∀ nev ω, PhotonOK (simPhoton nev d (t1 nev ω) 0) := fun nev ω =>
    (run_photons (H 0 ω) (R.smooth 0 ω) hfine hg hth (ht1 nev ω)).1 0
  have hM := fun nev => sim_meas P U hU a S d R H hth nev (ht1 nev)
  have k1 := (means_settle (P := P) hM hok
    (hq.mono fun ω h => eventually_atTop.mpr h) (settled_or_in P U a S d R H hth t1 ht1 hq)).1
  have hint : ∀ (F : Photon → ℝ) nev, (Measurable fun ω => F (simPhoton nev d (t1 nev ω) 0)) → (∀ ω, IsFraction (F (simPhoton nev d (t1 nev ω) 0))) →
      Integrable (fun ω => F (simPhoton nev d (t1 nev ω) 0)) P := fun F nev hm hb =>
    Integrable.of_bound hm.aestronglyMeasurable 1 (Eventually.of_forall fun ω => abs_le.mpr ⟨by linarith [(hb ω).1], (hb ω).2⟩)
  have hmul : ∀ {x y : ℝ}, IsFraction x → IsFraction y → IsFraction (x * y) := fun hx hy =>
    ⟨mul_nonneg hx.1 hy.1, mul_le_one₀ hx.2 hy.1 hy.2⟩
  have i1 := fun nev => hint (fun x => x.enter - x.outR - x.outT - x.trapped) nev ((((hM nev).enter.sub (hM nev).outR).sub (hM nev).outT).sub (hM nev).trapped)
    fun ω => ⟨by linarith [(hok nev ω).sum], by linarith [(hok nev ω).enter.2, (hok nev ω).outR.1, (hok nev ω).outT.1, (hok nev ω).trapped.1]⟩
  have i2 := fun nev => hint (fun x => x.outR * x.escR) nev ((hM nev).outR.mul (hM nev).escR) fun ω => hmul (hok nev ω).outR (hok nev ω).escR
  have i3 := fun nev => hint (fun x => x.outT * x.escT) nev ((hM nev).outT.mul (hM nev).escT) fun ω => hmul (hok nev ω).outT (hok nev ω).escT
  let K : Photon → ℝ := fun x => x.enter - x.outR - x.outT - x.trapped + x.outR * x.escR + x.outT * x.escT
  have i4 : ∀ nev, Integrable (fun ω => K (simPhoton nev d (t1 nev ω) 0)) P := fun nev => ((i1 nev).add (i2 nev)).add (i3 nev)
  have ek : ∀ nev, Photon.meanKnown P (fun ω => simPhoton nev d (t1 nev ω) 0) = ∫ ω, K (simPhoton nev d (t1 nev ω) 0) ∂P := by
    intro nev
    have e1 := integral_add ((i1 nev).add (i2 nev)) (i3 nev)
    have e2 := integral_add (i1 nev) (i2 nev)
    refine Eq.trans ?_ e1.symm
    refine congrArg₂ (· + ·) (Eq.trans ?_ e2.symm) rfl
    rfl
  have mono : Monotone (fun nev => Photon.meanKnown P (fun ω => simPhoton nev d (t1 nev ω) 0)) := by
    intro N N' hN
    dsimp only
    rw [ek N, ek N']
    refine integral_mono (i4 N) (i4 N') fun ω => ?_
    have hok' := hok N' ω
    have hp := fun nev => sim_path R (H 0 ω) (ht1 nev ω) 0
    dsimp only
    rw [hp N'] at hok' ⊢
    rw [hp N]
    by_cases h1 : stillIn d.optics.medium d.z_low d.thickness (Zc θ0 θ1 φ0 φ1 phase m mu d (group U ((0 : Fin 1) : ℕ) ω))
      (Kc θ0 θ1 φ0 φ1 phase m d (group U ((0 : Fin 1) : ℕ) ω)) N
    · exact known_mono hth (weight_anti U a S d R H ω _) hN h1 hok'
    · rw [photon_prefix hth hN h1]
  exact ⟨mono, fun nev => mono.ge_of_tendsto k1 nev⟩

omit hg in
/-- C141.  **The mean number of events is finite.**  Let `N ω` be any number of events such that the photon is still in the film (the number
that `calc_refl_trans` gives it as stuck is not zero) after every smaller number of events.  The expected value of `N` is bounded by a constant. -/
theorem C141_mean_events : ∃ C : ℝ, ∀ N : Ω → ℕ, (∀ ω nev, nev < N ω → stuckEvent nev d (t1 nev ω) 0 ≠ 0) →
    ∫⁻ ω, (N ω : ENNReal) ∂P ≤ ENNReal.ofReal C := by
  obtain ⟨A, r, hA, hr0, hr1, hb⟩ := stream_stuck hU R H hfine hth
  refine ⟨∑' nev : ℕ, A * r ^ nev, fun N hN => ?_⟩
  set B : ℕ → Set Ω := fun nev => {ω | stillIn d.optics.medium d.z_low d.thickness (Zc θ0 θ1 φ0 φ1 phase m mu d (group U 0 ω))
      (Kc θ0 θ1 φ0 φ1 phase m d (group U 0 ω)) nev} with hB
  have hin : ∀ ω nev, nev < N ω → ω ∈ B nev := by
    intro ω nev hn
    have hst := hN ω nev hn
    have H0 := H 0 ω
    obtain ⟨t, ht, hdir, -⟩ := simulate_facts H0 nev
    rw [ht1 nev ω] at ht
    injection ht with ht
    subst ht
    have hnm := H0.medium_pos
    have hle : d.n_medium ≤ d.optics.n_tir := by rw [tir_eq hfine]; exact H0.not_denser
    obtain ⟨h1, h2, -⟩ := column R H0 (ht1 nev ω) 0
    have hkz : ∀ i j', i < nev + 1 → |((t1 nev ω).direction i j').z| ≤ 1 := by
      intro i j' hi
      have := hdir i j' hi
      simp only [V3.normSq, V3.dot] at this
      rw [← sq_le_one_iff_abs_le_one]
      nlinarith [mul_self_nonneg ((t1 nev ω).direction i j').x, mul_self_nonneg ((t1 nev ω).direction i j').y]
    have hf := (fate_numbers (nev := nev) (fun e j => ((t1 nev ω).position e j).z) (fun e j => ((t1 nev ω).direction e j).z)
      (fun e j => hkz e j e.isLt) (hnm.trans_le hle) hnm hle hth
      (fate := fun j => filmFate d.optics.n_tir d.n_medium d.z_low d.thickness (fun e => ((t1 nev ω).position e j).z)
        (fun e => ((t1 nev ω).direction e j).z))
      (fun j => (filmFate_iff _ _ hth _ _ _).mp rfl)).2.2 0
    have e1 : filmFate d.optics.n_tir d.n_medium d.z_low d.thickness (fun e : Fin (nev + 2) => ((t1 nev ω).position e 0).z)
        (fun e : Fin (nev + 1) => ((t1 nev ω).direction e 0).z) = .trapped := by
      cases hc : filmFate d.optics.n_tir d.n_medium d.z_low d.thickness (fun e : Fin (nev + 2) => ((t1 nev ω).position e 0).z)
        (fun e : Fin (nev + 1) => ((t1 nev ω).direction e 0).z) with
      | trapped => rfl
      | reflected e =>
        rw [hc] at hf
        exact absurd hf hst
      | transmitted e =>
        rw [hc] at hf
        exact absurd hf hst
    show filmFate _ _ _ _ _ _ = _
    rw [← e1]
    congr 1
    · funext e; exact (h2 e (by omega)).symm
    · funext e; rw [h1 e (by omega)]; rfl
  have hpt : ∀ ω, (N ω : ENNReal) ≤ ∑' nev, (toMeasurable P (B nev)).indicator (fun _ => (1 : ENNReal)) ω := by
    intro ω
    calc (N ω : ENNReal) = ∑ nev ∈ Finset.range (N ω), 1 := by simp
      _ = ∑ nev ∈ Finset.range (N ω), (toMeasurable P (B nev)).indicator (fun _ => (1 : ENNReal)) ω := by
          refine Finset.sum_congr rfl fun nev hn => ?_
          rw [Set.indicator_of_mem (subset_toMeasurable P _ (hin ω nev (Finset.mem_range.mp hn)))]
      _ ≤ _ := ENNReal.sum_le_tsum _
  calc ∫⁻ ω, (N ω : ENNReal) ∂P ≤ ∫⁻ ω, ∑' nev, (toMeasurable P (B nev)).indicator (fun _ => (1 : ENNReal)) ω ∂P := lintegral_mono hpt
    _ = ∑' nev, P (B nev) := by
        rw [lintegral_tsum fun nev => (measurable_const.indicator (measurableSet_toMeasurable P _)).aemeasurable]
        refine tsum_congr fun nev => ?_
        rw [lintegral_indicator_const (measurableSet_toMeasurable P _), one_mul, measure_toMeasurable]
    _ ≤ ∑' nev : ℕ, ENNReal.ofReal (A * r ^ nev) := ENNReal.tsum_le_tsum fun nev => hb nev 0
    _ = ENNReal.ofReal (∑' nev : ℕ, A * r ^ nev) :=
        (ENNReal.ofReal_tsum_of_nonneg (fun nev => by positivity) ((summable_geometric_of_lt_one hr0.le hr1).mul_left A)).symm

end Main

/-- Non-vacuity of C141: the film of C137 with absorption, lit at angles of incidence of up to 45 degrees: the photon followed until it leaves exists and
has light of known final state. -/
example : ∃ (Ω : Type) (_ : MeasurableSpace Ω) (P : Measure Ω) (_ : IsProbabilityMeasure P) (U : ℕ × Draw → Ω → ℝ)
    (a : (nt : ℕ) → Ω → Args (nt + 1)) (S : (nt : ℕ) → Ω → Sampling (nt + 1) 3) (t1 : ℕ → Ω → Trajs 1) (q : Ω → Photon),
    UniformDraws P U ∧ StreamRun U 0 (Real.pi / 4) 0 (2 * Real.pi) (fun _ : Fin 3 => 1) 0 1 1 a S ∧
    (∀ nt ω, FilmRun (a nt ω) (S nt ω) (demoDet none)) ∧ (demoDet none).fine_roughness = 0 ∧ (demoDet none).gonio = none ∧
    (demoDet none).z_low < (demoDet none).thickness ∧ (∀ nev ω, simulate (nev + 1) (a 0 ω) (S 0 ω) = .ok (t1 nev ω)) ∧
    (∀ᵐ ω ∂P, ∃ N, ∀ nev, N ≤ nev → simPhoton nev (demoDet none) (t1 nev ω) 0 = q ω) ∧ Photon.meanKnown P q ≠ 0 := by
  obtain ⟨Ω, mΩ, P, U, hP, hU, hr⟩ := uniformDraws_in_range (ℕ × Draw)
  let a : (nt : ℕ) → Ω → Args (nt + 1) := fun nt ω =>
    ⟨1, 3 / 2, .film, 0, Real.pi / 4, none, 0, 2 * Real.pi, none, 1, none, 0, fun _ => 0, fun _ => 0, fun j => U (j, .beamTheta) ω,
      fun j => U (j, .beamPhi) ω, fun _ => 0, fun _ => 0, fun _ => 0⟩
  let S : (nt : ℕ) → Ω → Sampling (nt + 1) 3 := fun nt ω =>
    { p := fun _ => 1, min_angle := 0, draw_theta := fun i j => choiceIndex (probTheta (fun _ : Fin 3 => 1) 0) (U (j, .angle i) ω),
      rand_phi := fun i j => U (j, .azimuth i) ω, mu_scat := 1, mu_scat_mie := none,
      fine_roughness := 0, rand_step := fun i j => U (j, .step i) ω, rand_mie := fun _ => 1 / 2, mu_abs := 1 }
  have R : StreamRun U 0 (Real.pi / 4) 0 (2 * Real.pi) (fun _ : Fin 3 => 1) 0 1 1 a S := by
    constructor <;> intros <;> rfl
  have D := demo_filmRun 1 zero_le_one none
  have H : ∀ nt ω, FilmRun (a nt ω) (S nt ω) (demoDet none) := fun nt ω =>
    { nt_pos := Nat.succ_pos _, film := rfl, no_diameter := rfl, theta_len := fun l hl => (nomatch hl), phi_len := fun l hl => (nomatch hl),
      theta_range := by show (0 : ℝ) ≤ Real.pi / 4; positivity
      phi_range := by show (0 : ℝ) ≤ 2 * Real.pi; positivity
      same_medium := rfl, same_sample := rfl, medium_pos := D.medium_pos, not_denser := D.not_denser, front := D.front, back := D.back,
      particle := D.particle, matrix := D.matrix, fine := D.fine, draw_t := fun j => hr _ ω, draw_p := fun j => hr _ ω,
      phase := D.phase, min_angle := D.min_angle, phase_pos := D.phase_pos, rand_phi := fun i j => hr _ ω, mu_scat := D.mu_scat,
      mu_mie := D.mu_mie, fine_step := D.fine_step, rand_step := fun i j => hr _ ω, rand_mie := D.rand_mie, mu_abs := D.mu_abs }
  choose t1 ht1 using fun (nev : ℕ) ω => simulate_facts (H 0 ω) nev
  have hsim : ∀ nev ω, simulate (nev + 1) (a 0 ω) (S 0 ω) = .ok (t1 nev ω) := fun nev ω => (ht1 nev ω).1
  have hth : (demoDet none).z_low < (demoDet none).thickness := by norm_num [demoDet]
  obtain ⟨q, hq, -⟩ := (C141_photon_settles P U hU a S (demoDet none) R H rfl rfl hth t1 hsim).1
  refine ⟨Ω, mΩ, P, hP, U, a, S, t1, q, hU, R, H, rfl, rfl, hth, hsim, hq, ?_⟩
  have h1 := C137_absorbing_known P U hU a S (demoDet none) R H rfl rfl hth 0 (t1 0) (hsim 0) one_pos
    (by linarith [Real.pi_pos]) (by linarith [Real.pi_pos]) (fun x hx => (nomatch hx))
  have h2 := (C141_known_grows P U hU a S (demoDet none) R H rfl rfl hth t1 hsim q hq).2 0
  exact (h1.trans_le h2).ne'

end Verif.Props
