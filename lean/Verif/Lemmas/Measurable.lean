import Verif.Model.SphereRun
import Mathlib.MeasureTheory.Constructions.BorelSpace.Basic
import Mathlib.MeasureTheory.Function.SpecialFunctions.Basic
import Mathlib.MeasureTheory.Function.SpecialFunctions.Inner

/-!
# The functions of a sphere simulation are measurable
-/

namespace Verif
noncomputable section
open Classical MeasureTheory Verif.Spec
open Verif.Geometry (XV finV)

namespace XF

/-- The sets of numbers whose finite part is a Borel set. -/
instance : MeasurableSpace XF := MeasurableSpace.map fin inferInstance

@[fun_prop] theorem measurable_fin' : Measurable fin := fun _ h => h

theorem meas_iff {Y : Type} [MeasurableSpace Y] {g : XF → Y} (h : Measurable fun r : ℝ => g (fin r)) : Measurable g :=
  fun _ hs => h hs

@[fun_prop] theorem measurable_fin {X : Type} [MeasurableSpace X] {f : X → ℝ} (h : Measurable f) : Measurable fun x => fin (f x) :=
  measurable_fin'.comp h

/-- the kind of a number and its value -/
def split : XF → Fin 4 × ℝ
  | fin r => (0, r)
  | pinf => (1, 0)
  | ninf => (2, 0)
  | nan => (3, 0)

def join : Fin 4 → ℝ → XF
  | 0, r => fin r
  | 1, _ => pinf
  | 2, _ => ninf
  | 3, _ => nan

theorem split_meas : Measurable split := meas_iff (by
  show Measurable fun r : ℝ => ((0 : Fin 4), r)
  fun_prop)

theorem join_split (a : XF) : join (split a).1 (split a).2 = a := by cases a <;> rfl

theorem meas_two {Y : Type} [MeasurableSpace Y] {h : XF → XF → Y} (H : ∀ i k, Measurable fun p : ℝ × ℝ => h (join i p.1) (join k p.2)) :
    Measurable fun p : XF × XF => h p.1 p.2 := by
  have h2 : Measurable fun q : (Fin 4 × Fin 4) × (ℝ × ℝ) => h (join q.1.1 q.2.1) (join q.1.2 q.2.2) :=
    measurable_from_prod_countable_right fun q => H q.1 q.2
  have h3 : Measurable fun p : XF × XF => (((split p.1).1, (split p.2).1), ((split p.1).2, (split p.2).2)) := by
    have := split_meas
    fun_prop
  have e : (fun p : XF × XF => h p.1 p.2) = (fun q : (Fin 4 × Fin 4) × (ℝ × ℝ) => h (join q.1.1 q.2.1) (join q.1.2 q.2.2)) ∘
      fun p : XF × XF => (((split p.1).1, (split p.2).1), ((split p.1).2, (split p.2).2)) := by
    funext p
    simp only [Function.comp, join_split]
  rw [e]
  exact h2.comp h3

theorem infOfSign_meas {X : Type} [MeasurableSpace X] {f : X → ℝ} (hf : Measurable f) : Measurable fun x => infOfSign (f x) := by
  unfold infOfSign
  exact Measurable.ite (measurableSet_lt measurable_const hf) measurable_const
    (Measurable.ite (measurableSet_lt hf measurable_const) measurable_const measurable_const)

instance : MeasurableAdd₂ XF := ⟨meas_two fun i k => by
  fin_cases i <;> fin_cases k
  · exact measurable_fin (measurable_fst.add measurable_snd)
  all_goals exact measurable_const⟩

instance : MeasurableNeg XF := ⟨meas_iff (measurable_fin measurable_neg)⟩

instance : MeasurableSub₂ XF := ⟨by
  have h : (fun p : XF × XF => p.1 - p.2) = fun p => p.1 + -p.2 := rfl
  rw [h]
  fun_prop⟩

instance : MeasurableMul₂ XF := ⟨meas_two fun i k => by
  fin_cases i <;> fin_cases k
  · exact measurable_fin (measurable_fst.mul measurable_snd)
  · exact infOfSign_meas measurable_fst
  · exact infOfSign_meas measurable_fst.neg
  · exact measurable_const
  · exact infOfSign_meas measurable_snd
  · exact measurable_const
  · exact measurable_const
  · exact measurable_const
  · exact infOfSign_meas measurable_snd.neg
  all_goals exact measurable_const⟩

instance : MeasurableDiv₂ XF := ⟨meas_two fun i k => by
  fin_cases i <;> fin_cases k
  · exact Measurable.ite (measurableSet_eq_fun measurable_snd measurable_const) (infOfSign_meas measurable_fst)
      (measurable_fin (measurable_fst.div measurable_snd))
  · exact measurable_const
  · exact measurable_const
  · exact measurable_const
  · exact Measurable.ite (measurableSet_le measurable_const measurable_snd) measurable_const measurable_const
  · exact measurable_const
  · exact measurable_const
  · exact measurable_const
  · exact Measurable.ite (measurableSet_le measurable_const measurable_snd) measurable_const measurable_const
  all_goals exact measurable_const⟩

variable {X : Type} [MeasurableSpace X] {f g : X → XF}

theorem lt_meas (hf : Measurable f) (hg : Measurable g) : MeasurableSet {x | f x < g x} := by
  have h : Measurable fun p : XF × XF => (p.1 < p.2 : Prop) := meas_two (h := fun a b => (a < b : Prop)) fun i k => by
    fin_cases i <;> fin_cases k
    · exact measurable_fst.lt measurable_snd
    all_goals exact measurable_const
  exact (h.comp (hf.prodMk hg)).setOf

theorem nan_meas (hf : Measurable f) : MeasurableSet {x | XF.isNaN (f x)} := by
  have h : Measurable fun a : XF => (XF.isNaN a : Prop) := meas_iff (g := fun a : XF => (XF.isNaN a : Prop)) measurable_const
  exact (h.comp hf).setOf

@[fun_prop] theorem npMax_meas (hf : Measurable f) (hg : Measurable g) : Measurable fun x => npMax (f x) (g x) := by
  have h : Measurable fun p : XF × XF => npMax p.1 p.2 := meas_two fun i k => by
    fin_cases i <;> fin_cases k
    · exact measurable_fin (measurable_fst.max measurable_snd)
    · exact measurable_const
    · exact measurable_fin measurable_fst
    · exact measurable_const
    · exact measurable_const
    · exact measurable_const
    · exact measurable_const
    · exact measurable_const
    · exact measurable_fin measurable_snd
    all_goals exact measurable_const
  exact h.comp (hf.prodMk hg)

@[fun_prop] theorem abs_meas (hf : Measurable f) : Measurable fun x => XF.abs (f x) :=
  (meas_iff (measurable_fin continuous_abs.measurable) : Measurable XF.abs).comp hf

@[fun_prop] theorem sin_meas (hf : Measurable f) : Measurable fun x => XF.sin (f x) :=
  (meas_iff (measurable_fin Real.measurable_sin) : Measurable XF.sin).comp hf

@[fun_prop] theorem cos_meas (hf : Measurable f) : Measurable fun x => XF.cos (f x) :=
  (meas_iff (measurable_fin Real.measurable_cos) : Measurable XF.cos).comp hf

@[fun_prop] theorem arcsin_meas (hf : Measurable f) : Measurable fun x => XF.arcsin (f x) :=
  (meas_iff (Measurable.ite ((measurableSet_le measurable_const measurable_id).inter (measurableSet_le measurable_id measurable_const))
    (measurable_fin Real.measurable_arcsin) measurable_const) : Measurable XF.arcsin).comp hf

@[fun_prop] theorem arccos_meas (hf : Measurable f) : Measurable fun x => XF.arccos (f x) :=
  (meas_iff (Measurable.ite ((measurableSet_le measurable_const measurable_id).inter (measurableSet_le measurable_id measurable_const))
    (measurable_fin Real.measurable_arccos) measurable_const) : Measurable XF.arccos).comp hf

@[fun_prop] theorem sqrt_meas (hf : Measurable f) : Measurable fun x => XF.sqrt (f x) :=
  (meas_iff (Measurable.ite (measurableSet_le measurable_const measurable_id)
    (measurable_fin Real.continuous_sqrt.measurable) measurable_const) : Measurable XF.sqrt).comp hf

@[fun_prop] theorem nanToNum_meas (hf : Measurable f) : Measurable fun x => XF.nanToNum (f x) :=
  (meas_iff (measurable_fin measurable_id) : Measurable XF.nanToNum).comp hf

@[fun_prop] theorem val_meas (hf : Measurable f) : Measurable fun x => Simulation.val (f x) :=
  (meas_iff measurable_id : Measurable Simulation.val).comp hf

@[fun_prop] theorem nanToHalfPi_meas (hf : Measurable f) : Measurable fun x => Fresnel.nanToHalfPi (f x) :=
  (meas_iff (measurable_fin measurable_id) : Measurable Fresnel.nanToHalfPi).comp hf

theorem onFin_meas {h : ℝ → ℝ} (hh : Measurable h) (hf : Measurable f) : Measurable fun x => Fresnel.onFin h (f x) :=
  (meas_iff (measurable_fin hh) : Measurable (Fresnel.onFin h)).comp hf

end XF

open XF

/-! ## Columns -/

section Columns
variable {X : Type} [MeasurableSpace X]

instance : MeasurableSpace XV := MeasurableSpace.comap (fun v => (v.x, v.y, v.z)) inferInstance
instance : MeasurableSpace V3 := MeasurableSpace.comap (fun v => (v.x, v.y, v.z)) inferInstance

theorem xv_iff {f : X → XV} : Measurable f ↔ Measurable (fun x => (f x).x) ∧ Measurable (fun x => (f x).y) ∧ Measurable fun x => (f x).z := by
  rw [measurable_comap_iff]
  constructor
  · intro h
    exact ⟨h.fst, h.snd.fst, h.snd.snd⟩
  · rintro ⟨h1, h2, h3⟩
    exact h1.prodMk (h2.prodMk h3)

theorem v3_iff {f : X → V3} : Measurable f ↔ Measurable (fun x => (f x).x) ∧ Measurable (fun x => (f x).y) ∧ Measurable fun x => (f x).z := by
  rw [measurable_comap_iff]
  constructor
  · intro h
    exact ⟨h.fst, h.snd.fst, h.snd.snd⟩
  · rintro ⟨h1, h2, h3⟩
    exact h1.prodMk (h2.prodMk h3)

@[fun_prop] theorem XV.meas_x {f : X → XV} (h : Measurable f) : Measurable fun x => (f x).x := (xv_iff.mp h).1
@[fun_prop] theorem XV.meas_y {f : X → XV} (h : Measurable f) : Measurable fun x => (f x).y := (xv_iff.mp h).2.1
@[fun_prop] theorem XV.meas_z {f : X → XV} (h : Measurable f) : Measurable fun x => (f x).z := (xv_iff.mp h).2.2
@[fun_prop] theorem XV.meas_mk {a b c : X → XF} (ha : Measurable a) (hb : Measurable b) (hc : Measurable c) :
    Measurable fun x => (⟨a x, b x, c x⟩ : XV) := xv_iff.mpr ⟨ha, hb, hc⟩
@[fun_prop] theorem V3.meas_x {f : X → V3} (h : Measurable f) : Measurable fun x => (f x).x := (v3_iff.mp h).1
@[fun_prop] theorem V3.meas_y {f : X → V3} (h : Measurable f) : Measurable fun x => (f x).y := (v3_iff.mp h).2.1
@[fun_prop] theorem V3.meas_z {f : X → V3} (h : Measurable f) : Measurable fun x => (f x).z := (v3_iff.mp h).2.2
@[fun_prop] theorem V3.meas_mk {a b c : X → ℝ} (ha : Measurable a) (hb : Measurable b) (hc : Measurable c) :
    Measurable fun x => (⟨a x, b x, c x⟩ : V3) := v3_iff.mpr ⟨ha, hb, hc⟩

@[fun_prop] theorem finV_meas {a b c : X → ℝ} (ha : Measurable a) (hb : Measurable b) (hc : Measurable c) :
    Measurable fun x => finV (a x) (b x) (c x) := by
  unfold finV
  fun_prop

theorem finV_meas' {v : X → V3} (h : Measurable v) : Measurable fun x => finV (v x).x (v x).y (v x).z := by fun_prop

@[fun_prop] theorem valV_meas {f : X → XV} (hf : Measurable f) : Measurable fun x => Simulation.valV (f x) := by
  unfold Simulation.valV
  fun_prop

@[fun_prop] theorem magnitude_meas {a b c : X → XF} (ha : Measurable a) (hb : Measurable b) (hc : Measurable c) :
    Measurable fun x => Root.magnitude (a x) (b x) (c x) := by
  unfold Root.magnitude
  fun_prop

@[fun_prop] theorem normalizeCol_meas {f : X → XV} (hf : Measurable f) : Measurable fun x => Geometry.normalizeCol (f x) := by
  unfold Geometry.normalizeCol
  fun_prop

theorem clipUpper_meas (r : ℝ) {f : X → XF} (hf : Measurable f) : Measurable fun x => Geometry.clipUpper r (f x) := by
  unfold Geometry.clipUpper
  exact Measurable.ite (lt_meas measurable_const hf) measurable_const hf

theorem clipBoth_meas (r : ℝ) {f : X → XF} (hf : Measurable f) : Measurable fun x => Geometry.clipBoth r (f x) := by
  have h := clipUpper_meas r hf
  unfold Geometry.clipUpper at h
  unfold Geometry.clipBoth
  exact Measurable.ite (lt_meas h measurable_const) measurable_const h

theorem infToLarge_meas (r : ℝ) {p q : X → XV} (hp : Measurable p) (hq : Measurable q) :
    Measurable (fun x => (Geometry.infToLarge (p x) (q x) r).1) ∧ Measurable fun x => (Geometry.infToLarge (p x) (q x) r).2 := by
  unfold Geometry.infToLarge
  exact ⟨XV.meas_mk (clipBoth_meas r (by fun_prop)) (clipBoth_meas r (by fun_prop)) (clipUpper_meas r (by fun_prop)),
    XV.meas_mk (clipBoth_meas r (by fun_prop)) (clipBoth_meas r (by fun_prop)) (clipBoth_meas r (by fun_prop))⟩

@[fun_prop] theorem find_meas (r : ℝ) {p q : X → XV} (hp : Measurable p) (hq : Measurable q) :
    Measurable fun x => Geometry.findVecSphereIntersect (p x) (q x) r := by
  unfold Geometry.findVecSphereIntersect Geometry.quadratic Geometry.distSq
  dsimp only
  refine Measurable.ite (lt_meas (by fun_prop) (by fun_prop)) (by fun_prop) (Measurable.ite (lt_meas (by fun_prop) (by fun_prop)) (by fun_prop) measurable_const)

@[fun_prop] theorem rotateRefract_meas {p u k : X → XV} {al : X → XF} (hp : Measurable p) (hu : Measurable u) (hk : Measurable k)
    (ha : Measurable al) : Measurable fun x => Geometry.rotateRefract (p x) (u x) (k x) (al x) := by
  unfold Geometry.rotateRefract
  dsimp only
  refine XV.meas_mk ?_ ?_ ?_ <;> fun_prop

@[fun_prop] theorem refraction1_meas {a b c : X → XF} (ha : Measurable a) (hb : Measurable b) (hc : Measurable c) :
    Measurable fun x => Root.refraction1 (a x) (b x) (c x) := by
  unfold Root.refraction1
  dsimp only
  exact arcsin_meas (Measurable.ite (lt_meas measurable_const (by fun_prop)) measurable_const (by fun_prop))

theorem angles_aux (r : ℝ) {P Q : X → XV} (h1 : Measurable P) (h2 : Measurable Q) :
    let norm : X → XV := fun x => Geometry.normalizeCol (Geometry.findVecSphereIntersect (P x) (Q x) r)
    let k1 : X → XV := fun x => Geometry.normalizeCol ⟨(Q x).x - (P x).x, (Q x).y - (P x).y, (Q x).z - (P x).z⟩
    Measurable (fun x => XF.arccos (nanToNum ((norm x).x * (k1 x).x + (norm x).y * (k1 x).y + (norm x).z * (k1 x).z))) ∧
    Measurable fun x => Geometry.nanToNumV (norm x) := by
  dsimp only
  unfold Geometry.nanToNumV
  constructor <;> fun_prop

theorem getAnglesSphere_meas (r : ℝ) {p q : X → XV} (hp : Measurable p) (hq : Measurable q) :
    Measurable (fun x => (Geometry.getAnglesSphere (p x) (q x) r).1) ∧ Measurable fun x => (Geometry.getAnglesSphere (p x) (q x) r).2 := by
  obtain ⟨h1, h2⟩ := infToLarge_meas r hp hq
  exact angles_aux r h1 h2

theorem getAnglesInit_meas {p q : X → XV} (hp : Measurable p) (hq : Measurable q) :
    Measurable fun x => (Geometry.getAnglesSphereInit (p x) (q x)).1 := by
  unfold Geometry.getAnglesSphereInit
  dsimp only
  fun_prop

theorem exitKz_meas (D ns nm : ℝ) {p q k : X → XV} (hp : Measurable p) (hq : Measurable q) (hk : Measurable k) :
    Measurable fun x => Geometry.exitKz (p x) (q x) (k x) D ns nm := by
  obtain ⟨h1, h2⟩ := getAnglesSphere_meas (D / 2) hp hq
  unfold Geometry.exitKz Geometry.crossX
  dsimp only
  fun_prop

end Columns

/-! ## Arrays, events and weights -/

section Arrays
open Verif.Root Verif.Exits Verif.Restart Verif.Weights Verif.Fresnel Verif.SphereRun
variable {X : Type} [MeasurableSpace X] {nev nt num : ℕ}

/-- an array entry with a measurable number -/
theorem index_meas {Y : Type} [MeasurableSpace Y] {i : X → ℕ} {G : ℕ → X → Y} (hi : Measurable i) (hG : ∀ n, Measurable (G n)) :
    Measurable fun x => G (i x) x := by
  have h : Measurable fun p : ℕ × X => G p.1 p.2 := measurable_from_prod_countable_right fun n => hG n
  exact h.comp (hi.prodMk measurable_id)

theorem sel_meas {α : Type} [Zero α] [MeasurableSpace α] {a : X → Fin nev → Fin nt → α} {idx : X → Fin nt → ℕ} {j : Fin nt}
    (ha : ∀ e, Measurable fun x => a x e j) (hi : Measurable fun x => idx x j) : Measurable fun x => sel (a x) (idx x) j := by
  unfold sel
  refine index_meas (G := fun n x => if h : 0 < n ∧ n - 1 < nev then a x ⟨n - 1, h.2⟩ j else 0) hi fun n => ?_
  by_cases h : 0 < n ∧ n - 1 < nev
  · simp only [dif_pos h]; exact ha _
  · simp only [dif_neg h]; exact measurable_const

theorem selV_meas {a : X → Fin nev → Fin nt → V3} {idx : X → Fin nt → ℕ} {j : Fin nt}
    (ha : ∀ e, Measurable fun x => a x e j) (hi : Measurable fun x => idx x j) : Measurable fun x => selV (a x) (idx x) j := by
  unfold selV
  exact V3.meas_mk (sel_meas (fun e => V3.meas_x (ha e)) hi) (sel_meas (fun e => V3.meas_y (ha e)) hi) (sel_meas (fun e => V3.meas_z (ha e)) hi)

theorem firstEvent_meas {T : X → Fin nev → Fin nt → Bool} {j : Fin nt} (h : ∀ e, Measurable fun x => T x e j) :
    Measurable fun x => firstEvent (T x) j := by
  have : Measurable fun b : Fin nev → Bool => argmax (0 :: List.ofFn fun e => (b e).toNat) := measurable_of_countable _
  exact this.comp (measurable_pi_lambda (fun x e => T x e j) h)

theorem decide_meas {p : X → Prop} (h : MeasurableSet {x | p x}) : Measurable fun x => decide (p x) := by
  have : (fun x => decide (p x)) = fun x => if p x then true else false := by funext x; by_cases hp : p x <;> simp [hp]
  rw [this]
  exact Measurable.ite h measurable_const measurable_const

theorem potential_meas (D : ℝ) {pos : X → Fin (nev + 1) → Fin nt → V3} (hp : ∀ e j, Measurable fun x => pos x e j) (e : Fin nev) (j : Fin nt) :
    Measurable fun x => potentialSphere D (fun e j => (pos x e j).x) (fun e j => (pos x e j).y) (fun e j => (pos x e j).z) e j := by
  unfold potentialSphere
  have := hp e.succ j
  exact decide_meas (measurableSet_lt (by fun_prop) (by fun_prop))

theorem kzCorrect_meas (ns nm D : ℝ) {pos : X → Fin (nev + 1) → Fin nt → V3} {dir : X → Fin nev → Fin nt → V3}
    (hp : ∀ e j, Measurable fun x => pos x e j) (hd : ∀ e j, Measurable fun x => dir x e j) (j : Fin nt) :
    Measurable fun x => kzCorrect ns nm D (pos x) (dir x) j := by
  have hi : Measurable fun x => potentialIndices D (pos x) j := firstEvent_meas fun e => potential_meas D hp e j
  have h0 := selV_meas (a := fun x e j => centred D (pos x e.castSucc j)) (idx := fun x => potentialIndices D (pos x)) (j := j)
    (fun e => by unfold centred; have := hp e.castSucc j; fun_prop) hi
  have h1 := selV_meas (a := fun x e j => centred D (pos x e.succ j)) (idx := fun x => potentialIndices D (pos x)) (j := j)
    (fun e => by unfold centred; have := hp e.succ j; fun_prop) hi
  have h2 := selV_meas (a := fun x => dir x) (idx := fun x => potentialIndices D (pos x)) (j := j) (fun e => hd e j) hi
  unfold kzCorrect
  dsimp only
  exact exitKz_meas D ns nm (finV_meas' h0) (finV_meas' h1) (finV_meas' h2)

theorem events_meas (o : Optics) (D : ℝ) {t : X → SphTrajs nt} (hp : ∀ e j, Measurable fun x => (t x).position e j)
    (hd : ∀ e j, Measurable fun x => (t x).direction e j) (j : Fin nt) :
    (Measurable fun x => (sphereEvents nev o D (t x)).1 j) ∧ (Measurable fun x => (sphereEvents nev o D (t x)).2.1 j) ∧
    (Measurable fun x => (sphereEvents nev o D (t x)).2.2.1 j) ∧ Measurable fun x => (sphereEvents nev o D (t x)).2.2.2 j := by
  have hk := kzCorrect_meas o.n_tir o.n_medium D (pos := fun x => rowsP nev (t x).position) (dir := fun x => rowsD nev (t x).direction)
    (fun e j => hp e j) (fun e j => hd e j) j
  have hpot := fun e => potential_meas D (pos := fun x => rowsP nev (t x).position) (fun e j => hp e j) e j
  have hpos : Measurable fun x => firstEvent (sphereTables o.n_tir o.n_medium D (rowsP nev (t x).position) (rowsD nev (t x).direction)).pos j :=
    firstEvent_meas fun e => (measurable_of_countable fun b : Bool × Bool => b.1 && b.2).comp
      ((hpot e).prodMk (decide_meas (lt_meas measurable_const hk)))
  have hneg : Measurable fun x => firstEvent (sphereTables o.n_tir o.n_medium D (rowsP nev (t x).position) (rowsD nev (t x).direction)).neg j :=
    firstEvent_meas fun e => (measurable_of_countable fun b : Bool × Bool => b.1 && b.2).comp
      ((hpot e).prodMk (decide_meas (lt_meas hk measurable_const)))
  have htir : Measurable fun x => firstEvent (sphereTables o.n_tir o.n_medium D (rowsP nev (t x).position) (rowsD nev (t x).direction)).tir j :=
    firstEvent_meas fun e => (measurable_of_countable fun b : Bool × Bool => b.1 && !(!b.2)).comp
      ((hpot e).prodMk (decide_meas (nan_meas hk)))
  have hpn := hneg.prodMk hpos
  refine ⟨?_, ?_, ?_, htir⟩
  · exact (measurable_of_countable fun n : ℕ × ℕ => n.1 * (decide (n.2 = 0) || decide (n.1 < n.2)).toNat).comp hpn
  · exact (measurable_of_countable fun n : ℕ × ℕ => n.2 * (decide (n.1 = 0) || !decide (n.1 < n.2)).toNat).comp hpn
  · exact (measurable_of_countable fun n : ℕ × ℕ => (decide (n.1 = 0) && decide (n.2 = 0)).toNat * nev).comp hpn

theorem exitAngle_meas (D : ℝ) {pos : X → ℕ → Fin nt → V3} (hp : ∀ e j, Measurable fun x => pos x e j) {idx : X → Fin nt → ℕ} {j : Fin nt}
    (hi : Measurable fun x => idx x j) : Measurable fun x => exitAngle nev D (pos x) (idx x) j := by
  have h0 := selV_meas (a := fun x (e : Fin nev) j => centred D (rowsP nev (pos x) e.castSucc j)) (idx := idx) (j := j)
    (fun e => by unfold centred rowsP; have := hp e.castSucc j; fun_prop) hi
  have h1 := selV_meas (a := fun x (e : Fin nev) j => centred D (rowsP nev (pos x) e.succ j)) (idx := idx) (j := j)
    (fun e => by unfold centred rowsP; have := hp e.succ j; fun_prop) hi
  unfold exitAngle
  dsimp only
  exact (getAnglesSphere_meas (D / 2) (finV_meas' h0) (finV_meas' h1)).1

theorem entryAngle_meas (D : ℝ) {t : X → SphTrajs nt} (hp : ∀ e j, Measurable fun x => (t x).position e j)
    (hd : ∀ e j, Measurable fun x => (t x).direction e j) (j : Fin nt) : Measurable fun x => entryAngle D (t x) j := by
  have := hp 0 j
  have := hd 0 j
  unfold entryAngle centred
  dsimp only
  exact getAnglesInit_meas (by fun_prop) (by fun_prop)

/-- all the numbers of the geometry -/
structure GeoMeas (g : X → Weights.Geometry nt) : Prop where
  ri : ∀ j, Measurable fun x => (g x).ri j
  ti : ∀ j, Measurable fun x => (g x).ti j
  si : ∀ j, Measurable fun x => (g x).si j
  thInc : ∀ j, Measurable fun x => (g x).thInc j
  thIncDet : ∀ j, Measurable fun x => (g x).thIncDet j
  thRefl : ∀ j, Measurable fun x => (g x).thRefl j
  thTrans : ∀ j, Measurable fun x => (g x).thTrans j

theorem geometry_meas (nev : ℕ) (o : Optics) (D : ℝ) {t : X → SphTrajs nt} (hp : ∀ e j, Measurable fun x => (t x).position e j)
    (hd : ∀ e j, Measurable fun x => (t x).direction e j) : GeoMeas fun x => sphereGeometry nev o D (t x) where
  ri j := (events_meas o D hp hd j).1
  ti j := (events_meas o D hp hd j).2.1
  si j := (events_meas o D hp hd j).2.2.1
  thInc j := entryAngle_meas D hp hd j
  thIncDet j := entryAngle_meas D hp hd j
  thRefl _ := exitAngle_meas D hp (events_meas o D hp hd _).1
  thTrans _ := exitAngle_meas D hp (events_meas o D hp hd _).2.1

theorem rPar_meas (n1 n2 : ℝ) : Measurable (rPar n1 n2) := by
  unfold rPar tirMask ratioSq root
  refine Measurable.ite ?_ measurable_const (Measurable.ite (measurableSet_eq_fun (by fun_prop) measurable_const) measurable_const ?_)
  · by_cases h : n2 / n1 < 1
    · simp only [h, true_and]; exact measurableSet_le measurable_const measurable_id
    · simp only [h, false_and]; exact MeasurableSet.const _
  · exact (continuous_abs.measurable.comp (by fun_prop)).pow_const 2

theorem rPerp_meas (n1 n2 : ℝ) : Measurable (rPerp n1 n2) := by
  unfold rPerp tirMask ratioSq root
  refine Measurable.ite ?_ measurable_const (Measurable.ite (measurableSet_eq_fun (by fun_prop) measurable_const) measurable_const ?_)
  · by_cases h : n2 / n1 < 1
    · simp only [h, true_and]; exact measurableSet_le measurable_const measurable_id
    · simp only [h, false_and]; exact MeasurableSet.const _
  · exact (continuous_abs.measurable.comp (by fun_prop)).pow_const 2

theorem reflection_meas {n1 n2 : ℝ} {θ : X → Fin nt → XF} {r : X → (Fin nt → XF) × (Fin nt → XF)} (hθ : ∀ j, Measurable fun x => θ x j)
    (h : ∀ x, fresnelReflection n1 n2 (θ x) = .ok (r x)) :
    (∀ j, Measurable fun x => (r x).1 j) ∧ ∀ j, Measurable fun x => (r x).2 j := by
  have e : ∀ x, r x = (fun i => onFin (rPar n1 n2) (θ x i), fun i => onFin (rPerp n1 n2) (θ x i)) := by
    intro x
    have := h x
    unfold fresnelReflection at this
    split at this
    · exact (nomatch this)
    · injection this with this; exact this.symm
  simp only [e]
  exact ⟨fun j => onFin_meas (rPar_meas n1 n2) (hθ j), fun j => onFin_meas (rPerp_meas n1 n2) (hθ j)⟩

theorem bind_ok {α β : Type} {a : Except PyErr α} {f : α → Except PyErr β} {b : β} (h : (a >>= f) = .ok b) : ∃ v, a = .ok v ∧ f v = .ok b := by
  cases a with
  | error e => exact (nomatch h)
  | ok v => exact ⟨v, rfl, h⟩

theorem pass_aux {a1 b1 a2 b2 a3 b3 : X → XF} (h1 : Measurable a1) (k1 : Measurable b1) (h2 : Measurable a2) (k2 : Measurable b2)
    (h3 : Measurable a3) (k3 : Measurable b3) :
    Measurable fun x => ((fin 1 - a1 x + (fin 1 - b1 x)) * (fin 1 - a2 x + (fin 1 - b2 x)) / fin 4) /
      (fin 1 - (a2 x + b2 x) * (a3 x + b3 x) / fin 4 + fin EPS) := by
  fun_prop

theorem pass_meas {n1 n3 : ℝ} {n2 : Option ℝ} {θ : X → Fin nt → XF} {f : X → Fin nt → XF} (hθ : ∀ j, Measurable fun x => θ x j)
    (h : ∀ x, fresnelPassFrac (θ x) n1 n2 n3 = .ok (f x)) (j : Fin nt) : Measurable fun x => f x j := by
  have hin : ∀ j, Measurable fun x => nanToHalfPi (refraction (θ x) (fin n1) (fin (n2.getD n1)) j) := fun j =>
    nanToHalfPi_meas (refraction1_meas (hθ j) measurable_const measurable_const)
  have key : ∀ x, ∃ r1 r2 r3 : (Fin nt → XF) × (Fin nt → XF), fresnelReflection n1 (n2.getD n1) (θ x) = .ok r1 ∧
      fresnelReflection (n2.getD n1) n3 (fun i => nanToHalfPi (refraction (θ x) (fin n1) (fin (n2.getD n1)) i)) = .ok r2 ∧
      fresnelReflection (n2.getD n1) n1 (fun i => nanToHalfPi (refraction (θ x) (fin n1) (fin (n2.getD n1)) i)) = .ok r3 ∧
      f x = fun i => ((fin 1 - r1.1 i + (fin 1 - r1.2 i)) * (fin 1 - r2.1 i + (fin 1 - r2.2 i)) / fin 4) /
        (fin 1 - (r2.1 i + r2.2 i) * (r3.1 i + r3.2 i) / fin 4 + fin EPS) := by
    intro x
    have h := h x
    unfold fresnelPassFrac fresnelTransmission at h
    dsimp only at h
    generalize (fun i => nanToHalfPi (refraction (θ x) (fin n1) (fin (n2.getD n1)) i)) = ψ at h ⊢
    cases h1 : fresnelReflection n1 (n2.getD n1) (θ x) with
    | error e => rw [h1] at h; exact (nomatch h)
    | ok r1 =>
      rw [h1] at h
      cases h2 : fresnelReflection (n2.getD n1) n3 ψ with
      | error e => rw [h2] at h; exact (nomatch h)
      | ok r2 =>
        rw [h2] at h
        cases h3 : fresnelReflection (n2.getD n1) n1 ψ with
        | error e => rw [h3] at h; exact (nomatch h)
        | ok r3 =>
          rw [h3] at h
          refine ⟨r1, r2, r3, rfl, rfl, rfl, ?_⟩
          obtain ⟨a1, b1⟩ := r1
          obtain ⟨a2, b2⟩ := r2
          obtain ⟨a3, b3⟩ := r3
          injection h with h
          exact h.symm
  choose r1 r2 r3 e1 e2 e3 e4 using key
  obtain ⟨a1, b1⟩ := reflection_meas hθ e1
  obtain ⟨a2, b2⟩ := reflection_meas hin e2
  obtain ⟨a3, b3⟩ := reflection_meas hin e3
  have e : (fun x => f x j) = fun x => ((fin 1 - (r1 x).1 j + (fin 1 - (r1 x).2 j)) * (fin 1 - (r2 x).1 j + (fin 1 - (r2 x).2 j)) / fin 4) /
        (fin 1 - ((r2 x).1 j + (r2 x).2 j) * ((r3 x).1 j + (r3 x).2 j) / fin 4 + fin EPS) := by
    funext x
    rw [e4 x]
  rw [e]
  exact pass_aux (a1 j) (b1 j) (a2 j) (b2 j) (a3 j) (b3 j)

theorem detect_meas (n1 n2 θ : ℝ) {a w : X → Fin nt → XF} {j : Fin nt} (ha : Measurable fun x => a x j) (hw : Measurable fun x => w x j) :
    Measurable fun x => detectCorrect (a x) (w x) n1 n2 θ j := by
  unfold detectCorrect
  dsimp only
  have h := refraction1_meas ha (measurable_const (a := fin n1)) (measurable_const (a := fin n2))
  exact Measurable.ite (lt_meas measurable_const (Measurable.ite (nan_meas h) measurable_const h)) measurable_const hw

/-- the numbers of one call that matter later -/
structure LevelMeas (l : X → Level nt) : Prop where
  reflFresnel : ∀ j, Measurable fun x => (l x).exit.reflFresnel j
  transFresnel : ∀ j, Measurable fun x => (l x).exit.transFresnel j
  stuck : ∀ j, Measurable fun x => (l x).out.stuck j
  refl : ∀ j, Measurable fun x => (l x).det.refl j
  incRefl : ∀ j, Measurable fun x => (l x).det.incRefl j
  trans : ∀ j, Measurable fun x => (l x).det.trans j
  rdf : Measurable fun x => (l x).det.reflDetFrac
  tdf : Measurable fun x => (l x).det.transDetFrac
  total : Measurable fun x => (l x).totalStuck

theorem level_meas {o : Optics} {g : X → Weights.Geometry nt} (hg : GeoMeas g) {ft : Bool} {w : X → Fin nev → Fin nt → XF}
    (hw : ∀ e j, Measurable fun x => w x e j) {l : X → Level nt} (h : ∀ x, level o (g x) none ft (w x) = .ok (l x)) : LevelMeas l := by
  have key : ∀ x, ∃ inc passR passT : Fin nt → XF, incPassFrac ft (g x).thInc o.n_medium o.n_front o.n_tir = .ok inc ∧
      fresnelPassFrac (g x).thRefl o.n_tir o.n_front o.n_medium = .ok passR ∧
      fresnelPassFrac (g x).thTrans o.n_tir o.n_back o.n_medium = .ok passT ∧
      (∀ j, (l x).exit.reflFresnel j = inc j * sel (w x) (g x).ri j - inc j * sel (w x) (g x).ri j * passR j) ∧
      (∀ j, (l x).exit.transFresnel j = inc j * sel (w x) (g x).ti j - inc j * sel (w x) (g x).ti j * passT j) ∧
      (∀ j, (l x).out.stuck j = inc j * sel (w x) (g x).si j) ∧
      (∀ j, (l x).det.refl j = detectCorrect (g x).thRefl (fun j => inc j * sel (w x) (g x).ri j * passR j) o.n_sample o.n_medium
        o.detection_angle j) ∧
      (∀ j, (l x).det.trans j = detectCorrect (g x).thTrans (fun j => inc j * sel (w x) (g x).ti j * passT j) o.n_sample o.n_medium
        o.detection_angle j) ∧
      (∀ j, (l x).det.incRefl j = detectCorrect (g x).thIncDet (fun j => fin 1 - inc j) o.n_medium o.n_medium o.detection_angle j) ∧
      (l x).det.reflDetFrac = npMax (∑ j, (l x).det.refl j) (fin EPS) / npMax (∑ j, inc j * sel (w x) (g x).ri j * passR j) (fin EPS) ∧
      (l x).det.transDetFrac = npMax (∑ j, (l x).det.trans j) (fin EPS) / npMax (∑ j, inc j * sel (w x) (g x).ti j * passT j) (fin EPS) ∧
      (l x).totalStuck = (∑ j, ((l x).exit.reflFresnel j + (l x).exit.transFresnel j + (l x).out.stuck j)) / fin nt := by
    intro x
    have h := h x
    unfold level at h
    obtain ⟨inc, h1, h⟩ := bind_ok h
    obtain ⟨ex, h2, h⟩ := bind_ok h
    unfold fresnelCorrectExit at h2
    obtain ⟨passR, h3, h2⟩ := bind_ok h2
    obtain ⟨passT, h4, h2⟩ := bind_ok h2
    injection h2 with h2
    injection h with h
    subst h2
    refine ⟨inc, passR, passT, h1, h3, h4, ?_⟩
    rw [← h]
    exact ⟨fun _ => rfl, fun _ => rfl, fun _ => rfl, fun _ => rfl, fun _ => rfl, fun _ => rfl, rfl, rfl, rfl⟩
  choose inc passR passT hinc hR hT e1 e2 e3 e4 e5 e6 e7 e8 e9 using key
  have minc : ∀ j, Measurable fun x => inc x j := by
    intro j
    cases ft with
    | true =>
      have : inc = fun _ _ => fin 1 := by
        funext x
        have := hinc x
        simp only [incPassFrac, if_true] at this
        injection this with this; exact this.symm
      rw [this]
      exact measurable_const
    | false =>
      refine pass_meas (n1 := o.n_medium) (n2 := o.n_front) (n3 := o.n_tir) hg.thInc (fun x => ?_) j
      have := hinc x
      simpa only [incPassFrac, Bool.false_eq_true, if_false] using this
  have mR := pass_meas hg.thRefl hR
  have mT := pass_meas hg.thTrans hT
  have mr : ∀ j, Measurable fun x => sel (w x) (g x).ri j := fun j => sel_meas (fun e => hw e j) (hg.ri j)
  have mt : ∀ j, Measurable fun x => sel (w x) (g x).ti j := fun j => sel_meas (fun e => hw e j) (hg.ti j)
  have ms : ∀ j, Measurable fun x => sel (w x) (g x).si j := fun j => sel_meas (fun e => hw e j) (hg.si j)
  have mpr : ∀ j, Measurable fun x => inc x j * sel (w x) (g x).ri j * passR x j := fun j => ((minc j).mul (mr j)).mul (mR j)
  have mpt : ∀ j, Measurable fun x => inc x j * sel (w x) (g x).ti j * passT x j := fun j => ((minc j).mul (mt j)).mul (mT j)
  have f1 : ∀ j, Measurable fun x => (l x).exit.reflFresnel j := fun j => by
    simp only [e1]; exact ((minc j).mul (mr j)).sub (mpr j)
  have f2 : ∀ j, Measurable fun x => (l x).exit.transFresnel j := fun j => by
    simp only [e2]; exact ((minc j).mul (mt j)).sub (mpt j)
  have f3 : ∀ j, Measurable fun x => (l x).out.stuck j := fun j => by
    simp only [e3]; exact (minc j).mul (ms j)
  have f4 : ∀ j, Measurable fun x => (l x).det.refl j := fun j => by
    simp only [e4]; exact detect_meas _ _ _ (hg.thRefl j) (mpr j)
  have f5 : ∀ j, Measurable fun x => (l x).det.trans j := fun j => by
    simp only [e5]; exact detect_meas _ _ _ (hg.thTrans j) (mpt j)
  have f6 : ∀ j, Measurable fun x => (l x).det.incRefl j := fun j => by
    simp only [e6]; exact detect_meas _ _ _ (hg.thIncDet j) (measurable_const.sub (minc j))
  refine ⟨f1, f2, f3, f4, f6, f5, ?_, ?_, ?_⟩
  · simp only [e7]
    exact (npMax_meas (Finset.measurable_fun_sum _ fun j _ => f4 j) measurable_const).div
      (npMax_meas (Finset.measurable_fun_sum _ fun j _ => mpr j) measurable_const)
  · simp only [e8]
    exact (npMax_meas (Finset.measurable_fun_sum _ fun j _ => f5 j) measurable_const).div
      (npMax_meas (Finset.measurable_fun_sum _ fun j _ => mpt j) measurable_const)
  · simp only [e9]
    exact (Finset.measurable_fun_sum _ fun j _ => ((f1 j).add (f2 j)).add (f3 j)).div_const _

theorem reflect_meas {K N : X → XV} (hK : Measurable K) (hN : Measurable N) : Measurable fun x => rotateReflectX (K x) (N x) := by
  unfold rotateReflectX
  dsimp only
  fun_prop

/-- where the path meets the surface -/
def findI (R : ℝ) (P Q : XV) (r : XF) : XV :=
  ⟨(Geometry.findVecSphereIntersect ⟨P.x, P.y, P.z - r⟩ ⟨Q.x, Q.y, Q.z - r⟩ R).x,
    (Geometry.findVecSphereIntersect ⟨P.x, P.y, P.z - r⟩ ⟨Q.x, Q.y, Q.z - r⟩ R).y,
    (Geometry.findVecSphereIntersect ⟨P.x, P.y, P.z - r⟩ ⟨Q.x, Q.y, Q.z - r⟩ R).z + r⟩

def restartAt (R : ℝ) (P Q K : XV) (r : XF) : XV × XV :=
  (findI R P Q r, rotateReflectX K ⟨(findI R P Q r).x / fin R, (findI R P Q r).y / fin R, ((findI R P Q r).z - r) / fin R⟩)

theorem restartAt_meas (R : ℝ) {P Q K : X → XV} {r : X → XF} (hP : Measurable P) (hQ : Measurable Q) (hK : Measurable K) (hr : Measurable r) :
    (Measurable fun x => (restartAt R (P x) (Q x) (K x) (r x)).1) ∧ Measurable fun x => (restartAt R (P x) (Q x) (K x) (r x)).2 := by
  have h1 : Measurable fun x => findI R (P x) (Q x) (r x) := by
    unfold findI
    fun_prop
  refine ⟨h1, ?_⟩
  exact reflect_meas hK (XV.meas_mk ((XV.meas_x h1).div_const _) ((XV.meas_y h1).div_const _) (((XV.meas_z h1).sub hr).div_const _))

theorem restart_meas (D : ℝ) {pos : X → Fin (nev + 1) → Fin nt → V3} {dir : X → Fin nev → Fin nt → V3}
    (hp : ∀ e j, Measurable fun x => pos x e j) (hd : ∀ e j, Measurable fun x => dir x e j) {idx : X → Fin nt → ℕ}
    (hi : ∀ j, Measurable fun x => idx x j) {F : X → Fin nt → XV × XV} (h : ∀ x, restart D (pos x) (dir x) (idx x) = .ok (F x)) (j : Fin nt) :
    (Measurable fun x => (F x j).1) ∧ Measurable fun x => (F x j).2 := by
  have h1 := finV_meas' (selV_meas (a := fun x e => pos x e.succ) (j := j) (fun e => hp e.succ j) (hi j))
  have h0 := finV_meas' (selV_meas (a := fun x e => pos x e.castSucc) (j := j) (fun e => hp e.castSucc j) (hi j))
  have hk := finV_meas' (selV_meas (a := dir) (j := j) (fun e => hd e j) (hi j))
  have hr : Measurable fun x => (fin (sel (fun (_ : Fin (nev + 1)) _ => D / 2) (idx x) j) : XF) :=
    measurable_fin (sel_meas (a := fun _ _ _ => D / 2) (fun _ => measurable_const) (hi j))
  obtain ⟨q1, q2⟩ := infToLarge_meas (D / 2) h0 h1
  have e : ∀ x, F x j = restartAt (D / 2)
        (Geometry.infToLarge (finV (selV (fun e => pos x e.castSucc) (idx x) j).x (selV (fun e => pos x e.castSucc) (idx x) j).y
          (selV (fun e => pos x e.castSucc) (idx x) j).z) (finV (selV (fun e => pos x e.succ) (idx x) j).x
          (selV (fun e => pos x e.succ) (idx x) j).y (selV (fun e => pos x e.succ) (idx x) j).z) (D / 2)).1
        (Geometry.infToLarge (finV (selV (fun e => pos x e.castSucc) (idx x) j).x (selV (fun e => pos x e.castSucc) (idx x) j).y
          (selV (fun e => pos x e.castSucc) (idx x) j).z) (finV (selV (fun e => pos x e.succ) (idx x) j).x
          (selV (fun e => pos x e.succ) (idx x) j).y (selV (fun e => pos x e.succ) (idx x) j).z) (D / 2)).2
        (finV (selV (dir x) (idx x) j).x (selV (dir x) (idx x) j).y (selV (dir x) (idx x) j).z)
        (fin (sel (fun (_ : Fin (nev + 1)) _ => D / 2) (idx x) j)) := by
    intro x
    have := h x
    unfold restart at this
    split at this
    · exact (nomatch this)
    · injection this with this
      rw [← this]
      rfl
  have h := restartAt_meas (D / 2) q1 q2 hk hr
  constructor
  · rw [show (fun x => (F x j).1) = _ from funext fun x => congrArg Prod.fst (e x)]
    exact h.1
  · rw [show (fun x => (F x j).2) = _ from funext fun x => congrArg Prod.snd (e x)]
    exact h.2

end Arrays

/-! ## Trajectories and the whole run -/

section Run
open Verif.Root Verif.Exits Verif.Restart Verif.Weights Verif.Fresnel Verif.SphereRun Verif.Traj Verif.Simulation Verif.Init
variable {X : Type} [MeasurableSpace X] {nev nt num : ℕ}

@[fun_prop] theorem V3.meas_add {a b : X → V3} (ha : Measurable a) (hb : Measurable b) : Measurable fun x => a x + b x := by
  show Measurable fun x => V3.add (a x) (b x)
  unfold V3.add
  fun_prop

@[fun_prop] theorem V3.meas_smul {a : X → ℝ} {b : X → V3} (ha : Measurable a) (hb : Measurable b) : Measurable fun x => V3.smul (a x) (b x) := by
  unfold V3.smul
  fun_prop

theorem cumsum_meas {s : X → ℕ → ℝ} (hs : ∀ i, Measurable fun x => s x i) (i : ℕ) : Measurable fun x => cumsum (s x) i := by
  induction i with
  | zero => exact hs 0
  | succ i ih => exact ih.add (hs (i + 1))

theorem cumsumV_meas {s : X → ℕ → V3} (hs : ∀ i, Measurable fun x => s x i) (i : ℕ) : Measurable fun x => cumsum (s x) i := by
  induction i with
  | zero => exact hs 0
  | succ i ih => exact V3.meas_add ih (hs (i + 1))

theorem move_meas {p k : X → ℕ → Fin nt → V3} {s : X → ℕ → Fin nt → ℝ} (hp : ∀ i j, Measurable fun x => p x i j)
    (hs : ∀ i j, Measurable fun x => s x i j) (hk : ∀ i j, Measurable fun x => k x i j) (i : ℕ) (j : Fin nt) :
    Measurable fun x => move (p x) (s x) (k x) i j := by
  unfold move
  refine cumsumV_meas (fun n => ?_) i
  cases n with
  | zero => exact hp 0 j
  | succ n => exact V3.meas_smul (hs n j) (hk n j)

theorem scatter_meas (n : ℕ) {k : X → ℕ → Fin nt → V3} {st ct sp cp : X → ℕ → Fin nt → ℝ} (hk : ∀ i j, Measurable fun x => k x i j)
    (h1 : ∀ i j, Measurable fun x => st x i j) (h2 : ∀ i j, Measurable fun x => ct x i j) (h3 : ∀ i j, Measurable fun x => sp x i j)
    (h4 : ∀ i j, Measurable fun x => cp x i j) (i : ℕ) (j : Fin nt) :
    Measurable fun x => scatter n (k x) (st x) (ct x) (sp x) (cp x) i j := by
  unfold scatter
  generalize List.range' 1 (n - 1) = L
  induction L generalizing k with
  | nil => exact hk i j
  | cons a L ih =>
    refine ih (k := fun x => scatterBody (st x) (ct x) (sp x) (cp x) (k x) a) fun i j => ?_
    by_cases h : i = a
    · subst h
      simp only [scatterBody, Function.update_self]
      unfold turn
      have := h1 (i - 1) j; have := h2 (i - 1) j; have := h3 (i - 1) j; have := h4 (i - 1) j
      have hx := V3.meas_x (hk (i - 1) j); have hy := V3.meas_y (hk (i - 1) j); have hz := V3.meas_z (hk (i - 1) j)
      fun_prop
    · simp only [scatterBody, Function.update_of_ne h]
      exact hk i j

/-- random numbers that depend measurably on `x` -/
structure DrawsMeas (θ : X → ℕ → Fin nt → Fin num) (φ s : X → ℕ → Fin nt → ℝ) (m : X → ℕ → ℝ) : Prop where
  theta : ∀ i j, Measurable fun x => θ x i j
  phi : ∀ i j, Measurable fun x => φ x i j
  step : ∀ i j, Measurable fun x => s x i j
  mie : ∀ i, Measurable fun x => m x i

theorem angles_meas {n : ℕ} {p : Fin num → ℝ} {ma : ℝ} {θ : X → ℕ → Fin nt → Fin num} {φ : X → ℕ → Fin nt → ℝ}
    (hθ : ∀ i j, Measurable fun x => θ x i j) (hφ : ∀ i j, Measurable fun x => φ x i j) {a : X → Angles nt}
    (h : ∀ x, sampleAngles1 n p ma (θ x) (φ x) = .ok (a x)) :
    (∀ i j, Measurable fun x => (a x).sintheta i j) ∧ (∀ i j, Measurable fun x => (a x).costheta i j) ∧
    (∀ i j, Measurable fun x => (a x).sinphi i j) ∧ ∀ i j, Measurable fun x => (a x).cosphi i j := by
  have e : ∀ x, a x = mkAngles (n - 1) (fun i j => linspace ma Real.pi num (θ x i j)) (fun i j => 2 * Real.pi * φ x i j) := by
    intro x
    have := h x
    unfold sampleAngles1 at this
    dsimp only at this
    split at this
    · injection this with this; exact this.symm
    · exact (nomatch this)
  have hl : ∀ i j, Measurable fun x => linspace ma Real.pi num (θ x i j) := fun i j =>
    (measurable_of_countable fun k : Fin num => linspace ma Real.pi num k).comp (hθ i j)
  simp only [e, mkAngles]
  exact ⟨fun i j => Real.measurable_sin.comp (hl i j), fun i j => Real.measurable_cos.comp (hl i j),
    fun i j => Real.measurable_sin.comp ((hφ i j).const_mul _), fun i j => Real.measurable_cos.comp ((hφ i j).const_mul _)⟩

theorem step_meas {mu fr : ℝ} {mie : Option ℝ} {r : X → ℕ → Fin nt → ℝ} {m : X → ℕ → ℝ} (hr : ∀ i j, Measurable fun x => r x i j)
    (hm : ∀ i, Measurable fun x => m x i) {s : X → ℕ → Fin nt → XF} (h : ∀ x, sampleStep nt mu mie fr (r x) (m x) = .ok (s x)) (i : ℕ) (j : Fin nt) :
    Measurable fun x => s x i j := by
  have h1 : Measurable fun x => (fin (-Real.log (1 - r x i j)) / fin mu : XF) := by
    have := hr i j
    have h : Measurable fun x => -Real.log (1 - r x i j) := (Real.measurable_log.comp (this.const_sub 1)).neg
    exact (measurable_fin h).div_const _
  by_cases hf : 1 < fr ∨ fr < 0
  · have hemp : IsEmpty X := ⟨fun x => by
      have := h x
      unfold sampleStep at this
      rw [if_pos hf] at this
      exact (nomatch this)⟩
    exact measurable_of_empty _
  · cases mie with
    | none =>
      have e : ∀ x, s x i j = fin (-Real.log (1 - r x i j)) / fin mu := by
        intro x
        have := h x
        unfold sampleStep at this
        rw [if_neg hf] at this
        injection this with this
        rw [← this]
      simp only [e]; exact h1
    | some mu' =>
      have e : ∀ x, s x i j = if i = 0 ∧ j.val < (pyRound (nt * fr)).toNat then fin (-Real.log (1 - m x j)) / fin mu' else
          fin (-Real.log (1 - r x i j)) / fin mu := by
        intro x
        have := h x
        unfold sampleStep at this
        rw [if_neg hf] at this
        injection this with this
        rw [← this]
      simp only [e]
      split
      · have h : Measurable fun x => -Real.log (1 - m x j) := (Real.measurable_log.comp ((hm j).const_sub 1)).neg
        exact (measurable_fin h).div_const _
      · exact h1

/-- trajectories that depend measurably on `x` -/
structure TrajMeas (t : X → SphTrajs nt) : Prop where
  position : ∀ i j, Measurable fun x => (t x).position i j
  direction : ∀ i j, Measurable fun x => (t x).direction i j
  weight : ∀ i j, Measurable fun x => (t x).weight i j

theorem rerun_meas {n : ℕ} {m : Medium num} {g : X → Draws nt num}
    (hg : DrawsMeas (fun x => (g x).draw_theta) (fun x => (g x).rand_phi) (fun x => (g x).rand_step) fun x => (g x).rand_mie)
    {F : X → Fin nt → XV × XV} (hF : ∀ j, (Measurable fun x => (F x j).1) ∧ Measurable fun x => (F x j).2)
    {W : X → Fin nt → XF} (hW : ∀ j, Measurable fun x => W x j) {t : X → SphTrajs nt} (h : ∀ x, rerun n m (g x) (F x) (W x) = .ok (t x)) :
    TrajMeas t := by
  have key : ∀ x, ∃ (a : Angles nt) (s : ℕ → Fin nt → XF), sampleAngles1 n m.p (1 / 100) (g x).draw_theta (g x).rand_phi = .ok a ∧
      sampleStep nt m.mu_scat m.mu_scat_mie 0 (g x).rand_step (g x).rand_mie = .ok s ∧
      (t x).direction = scatter n (fun i j => if i = 0 then valV (F x j).2 else V3.zero) a.sintheta a.costheta a.sinphi a.cosphi ∧
      (t x).position = move (fun i j => if i = 0 then valV (F x j).1 else V3.zero) (fun i j => val (s i j)) (t x).direction ∧
      (t x).weight = fun i j => W x j * fin (Real.exp (-(m.mu_abs * cumsum (fun n => val (s n j)) i))) := by
    intro x
    have h := h x
    unfold rerun at h
    obtain ⟨a, h1, h⟩ := bind_ok h
    obtain ⟨s, h2, h⟩ := bind_ok h
    injection h with h
    rw [← h]
    exact ⟨a, s, h1, h2, rfl, rfl, rfl⟩
  choose a s ha hs e1 e2 e3 using key
  obtain ⟨m1, m2, m3, m4⟩ := angles_meas hg.theta hg.phi ha
  have ms : ∀ i j, Measurable fun x => val (s x i j) := fun i j => val_meas (step_meas hg.step hg.mie hs i j)
  have hd : ∀ i j, Measurable fun x => (t x).direction i j := by
    intro i j
    simp only [e1]
    refine scatter_meas n (fun i j => ?_) m1 m2 m3 m4 i j
    split
    · exact valV_meas (hF j).2
    · exact measurable_const
  refine ⟨fun i j => ?_, hd, fun i j => ?_⟩
  · simp only [e2]
    refine move_meas (fun i j => ?_) ms hd i j
    split
    · exact valV_meas (hF j).1
    · exact measurable_const
  · simp only [e3]
    have h := cumsum_meas (s := fun x n => val (s x n j)) (fun n => ms n j) i
    exact (hW j).mul (measurable_fin (Real.measurable_exp.comp ((h.const_mul _).neg)))

theorem calcSphere_meas (D : ℝ) (m : Medium num) (run : Bool) (ms : ℝ) (on : Optics) (k : ℕ) :
    ∀ (X : Type) (_ : MeasurableSpace X) (draws : X → ℕ → Draws nt num)
      (_ : ∀ c, DrawsMeas (fun x => (draws x c).draw_theta) (fun x => (draws x c).rand_phi) (fun x => (draws x c).rand_step)
        fun x => (draws x c).rand_mie) (o : Optics) (M depth nev : ℕ) (t : X → SphTrajs nt) (_ : TrajMeas t) (rt : X → RT nt),
      2 * (defaultMaxCallDepth - depth) + min 1 (M - depth) = k →
      (∀ x, calcSphere D m (draws x) run ms on o M depth nev (t x) = .ok (rt x)) →
      (Measurable fun x => (rt x).R) ∧ Measurable fun x => (rt x).T := by
  induction k using Nat.strong_induction_on with
  | _ k ih =>
    intro X _ draws hdraws o M depth nev t ht rt hk h
    have hlev : ∀ x, ∃ l, level o (sphereGeometry nev o D (t x)) none (decide (0 < depth)) (fun (e : Fin nev) j => (t x).weight e j) = .ok l := by
      intro x
      have := h x
      rw [calcSphere] at this
      obtain ⟨l, hl, -⟩ := bind_ok this
      exact ⟨l, hl⟩
    choose l hl using hlev
    have hL := level_meas (geometry_meas nev o D ht.position ht.direction) (fun e j => ht.weight e j) hl
    have hset : MeasurableSet {x | run = true ∧ depth < M ∧ (fin ms : XF) < (l x).totalStuck} := by
      by_cases hc : run = true ∧ depth < M
      · simp only [hc.1, hc.2, true_and]; exact lt_meas measurable_const hL.total
      · have : {x | run = true ∧ depth < M ∧ (fin ms : XF) < (l x).totalStuck} = ∅ := by
          ext x; simp only [Set.mem_ofPred_eq, Set.mem_empty_iff_false, iff_false]; exact fun h => hc ⟨h.1, h.2.1⟩
        rw [this]; exact MeasurableSet.empty
    set A := {x | run = true ∧ depth < M ∧ (fin ms : XF) < (l x).totalStuck} with hA
    -- where nothing is run again
    have hout : ∀ x : (Aᶜ : Set X), rt x = distribute (l x).exit (l x).det (l x).out.stuck .sphere false := by
      intro x
      have hx := h x
      rw [calcSphere, hl] at hx
      have hn : ¬ (run = true ∧ depth < M ∧ (fin ms : XF) < (l x).totalStuck) := x.2
      simp only [bind, Except.bind, dif_neg hn, pure, Except.pure] at hx
      injection hx with hx
      exact hx.symm
    -- where light is run again
    have hin : ∀ x : A, ∃ F t' r, restart D (rowsP nev (t x).position) (rowsD nev (t x).direction)
          (restartIndices (sphereEvents nev o D (t x)).1 (sphereEvents nev o D (t x)).2.1 (sphereEvents nev o D (t x)).2.2.2) = .ok F ∧
        rerun (nev + 1) m (draws x (depth + 1)) F (restartWeight (l x).exit.reflFresnel (l x).exit.transFresnel (l x).out.stuck) = .ok t' ∧
        calcSphere D m (draws x) run ms on on defaultMaxCallDepth (depth + 1) (nev + 1) t' = .ok r ∧
        (rt x).R = r.R + ∑ j, ((l x).det.refl j + (l x).det.incRefl j) / fin nt ∧
        (rt x).T = r.T + ∑ j, (l x).det.trans j / fin nt := by
      intro x
      have hx := h x
      rw [calcSphere, hl] at hx
      have hn : run = true ∧ depth < M ∧ (fin ms : XF) < (l x).totalStuck := x.2
      simp only [bind, Except.bind, dif_pos hn, pure, Except.pure] at hx
      obtain ⟨F, hF, hx⟩ := bind_ok (a := restart D (rowsP nev (t x).position) (rowsD nev (t x).direction)
          (restartIndices (sphereEvents nev o D (t x)).1 (sphereEvents nev o D (t x)).2.1 (sphereEvents nev o D (t x)).2.2.2)) hx
      obtain ⟨t', ht', hx⟩ := bind_ok (a := rerun (nev + 1) m (draws x (depth + 1)) F
        (restartWeight (l x).exit.reflFresnel (l x).exit.transFresnel (l x).out.stuck)) hx
      obtain ⟨r, hr, hx⟩ := bind_ok (a := calcSphere D m (draws x) run ms on on defaultMaxCallDepth (depth + 1) (nev + 1) t') hx
      injection hx with hx
      exact ⟨F, t', r, hF, ht', hr, by rw [← hx], by rw [← hx]⟩
    choose F t' r hF ht' hr eR eT using hin
    have hsub : Measurable (Subtype.val : A → X) := measurable_subtype_coe
    have hev := fun j => events_meas (nev := nev) o D ht.position ht.direction j
    have mF := restart_meas D (X := A) (pos := fun x => rowsP nev (t x).position) (dir := fun x => rowsD nev (t x).direction)
      (fun e j => (ht.position e j).comp hsub) (fun e j => (ht.direction e j).comp hsub)
      (idx := fun x => restartIndices (sphereEvents nev o D (t x)).1 (sphereEvents nev o D (t x)).2.1 (sphereEvents nev o D (t x)).2.2.2)
      (fun j => (((hev j).1.add (hev j).2.1).add (hev j).2.2.2).comp hsub) hF
    have mt' : TrajMeas t' := rerun_meas (X := A) (g := fun x => draws x (depth + 1))
      ⟨fun i j => ((hdraws (depth + 1)).theta i j).comp hsub, fun i j => ((hdraws (depth + 1)).phi i j).comp hsub,
        fun i j => ((hdraws (depth + 1)).step i j).comp hsub, fun i => ((hdraws (depth + 1)).mie i).comp hsub⟩ mF
      (W := fun x => restartWeight (l x).exit.reflFresnel (l x).exit.transFresnel (l x).out.stuck)
      (fun j => (((hL.reflFresnel j).add (hL.transFresnel j)).add (hL.stuck j)).comp hsub) ht'
    have hrec : (Measurable fun x : A => (r x).R) ∧ Measurable fun x : A => (r x).T := by
      by_cases hM : depth < M
      · refine ih (2 * (defaultMaxCallDepth - (depth + 1)) + min 1 (defaultMaxCallDepth - (depth + 1))) ?_ A _ (fun x => draws x)
          (fun c => ⟨fun i j => ((hdraws c).theta i j).comp hsub, fun i j => ((hdraws c).phi i j).comp hsub,
            fun i j => ((hdraws c).step i j).comp hsub, fun i => ((hdraws c).mie i).comp hsub⟩) on defaultMaxCallDepth (depth + 1) (nev + 1) t' mt' r rfl hr
        rw [← hk]
        unfold defaultMaxCallDepth
        omega
      · have hemp : IsEmpty A := ⟨fun x => hM (by have := x.2; exact this.2.1)⟩
        exact ⟨measurable_of_empty _, measurable_of_empty _⟩
    have hsum : (Measurable fun x => ∑ j, ((l x).det.refl j + (l x).det.incRefl j) / fin nt) :=
      Finset.measurable_fun_sum _ fun j _ => ((hL.refl j).add (hL.incRefl j)).div_const _
    have hsum' : (Measurable fun x => ∑ j, (l x).det.trans j / fin nt) :=
      Finset.measurable_fun_sum _ fun j _ => (hL.trans j).div_const _
    constructor
    · refine measurable_of_restrict_of_restrict_compl hset ?_ ?_
      · have e : A.domRestrict (fun x => (rt x).R) = fun x => (r x).R + ∑ j, ((l x).det.refl j + (l x).det.incRefl j) / fin nt := funext eR
        rw [e]
        exact hrec.1.add (hsum.comp hsub)
      · have e : Aᶜ.domRestrict (fun x => (rt x).R) = fun x : (Aᶜ : Set X) => ∑ j, ((l x).det.refl j + fin (1 / 2) * ((l x).exit.reflFresnel j +
            (l x).exit.transFresnel j + (l x).out.stuck j) * (l x).det.reflDetFrac + (l x).det.incRefl j) / fin nt := by
          funext x
          rw [Set.domRestrict_apply, hout x]
          rfl
        rw [e]
        have : Measurable fun x => ∑ j, ((l x).det.refl j + fin (1 / 2) * ((l x).exit.reflFresnel j +
            (l x).exit.transFresnel j + (l x).out.stuck j) * (l x).det.reflDetFrac + (l x).det.incRefl j) / fin nt :=
          Finset.measurable_fun_sum _ fun j _ => (((hL.refl j).add (((((hL.reflFresnel j).add (hL.transFresnel j)).add (hL.stuck j)).const_mul _).mul
            hL.rdf)).add (hL.incRefl j)).div_const _
        exact this.comp measurable_subtype_coe
    · refine measurable_of_restrict_of_restrict_compl hset ?_ ?_
      · have e : A.domRestrict (fun x => (rt x).T) = fun x => (r x).T + ∑ j, (l x).det.trans j / fin nt := funext eT
        rw [e]
        exact hrec.2.add (hsum'.comp hsub)
      · have e : Aᶜ.domRestrict (fun x => (rt x).T) = fun x : (Aᶜ : Set X) => ∑ j, ((l x).det.trans j + fin (1 / 2) * ((l x).exit.transFresnel j +
            (l x).exit.reflFresnel j + (l x).out.stuck j) * (l x).det.transDetFrac) / fin nt := by
          funext x
          rw [Set.domRestrict_apply, hout x]
          rfl
        rw [e]
        have : Measurable fun x => ∑ j, ((l x).det.trans j + fin (1 / 2) * ((l x).exit.transFresnel j +
            (l x).exit.reflFresnel j + (l x).out.stuck j) * (l x).det.transDetFrac) / fin nt :=
          Finset.measurable_fun_sum _ fun j _ => ((hL.trans j).add (((((hL.transFresnel j).add (hL.reflFresnel j)).add (hL.stuck j)).const_mul _).mul
            hL.tdf)).div_const _
        exact this.comp measurable_subtype_coe

end Run
end
end Verif
