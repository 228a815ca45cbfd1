import Verif.Spec
import Mathlib.Data.Fintype.BigOperators

/-!
# Specification of the estimator of reflectance and transmittance

What `calc_refl_trans` documents for one bundle of simulated photons, written down with real numbers and textbook optics
only.  Nothing here is taken from /repo's code.
-/

namespace Verif.Spec
noncomputable section
open Classical

/-- What became of a photon: it left through the illuminated face at an event, through the far face, or never left. -/
inductive Fate (nev : ℕ) where
  | reflected (e : Fin nev)
  | transmitted (e : Fin nev)
  | trapped

namespace Fate
variable {nev : ℕ}
/-- event at which the photon was reflected -/
def reflEvent : Fate nev → Option (Fin nev) | .reflected e => some e | _ => none
/-- event at which the photon was transmitted -/
def transEvent : Fate nev → Option (Fin nev) | .transmitted e => some e | _ => none
/-- the last event, if the photon is still in the sample then -/
def lastEvent : Fate (nev + 1) → Option (Fin (nev + 1)) | .trapped => some (Fin.last nev) | _ => none
end Fate

/-- entry of a table at an event, 0 if there is none -/
def valueAt {nev : ℕ} (e : Option (Fin nev)) (a : Fin nev → ℝ) : ℝ := match e with | some e => a e | none => 0

/-- At event `e` a photon of unfolded heights `z` and direction cosines `kz` meets, first of all, the face `f` of the film
between `bottom` and `top`, at an angle at which light can leave (`n sin θ < n_out`). -/
def LeavesThrough {nev : ℕ} (n n_out bottom top f : ℝ) (z : Fin (nev + 1) → ℝ) (kz : Fin nev → ℝ) (e : Fin nev) : Prop :=
  n * Real.sqrt (1 - kz e ^ 2) < n_out ∧
    ∃ b : ℤ, FirstCrossed ((z e.castSucc - bottom) / (top - bottom)) ((z e.succ - bottom) / (top - bottom)) b ∧
      bottom + fold b * (top - bottom) = f

/-- The fate is decided by the first event at which the photon leaves through either face. -/
def IsFate {nev : ℕ} (n n_out bottom top : ℝ) (z : Fin (nev + 1) → ℝ) (kz : Fin nev → ℝ) : Fate nev → Prop
  | .reflected e => LeavesThrough n n_out bottom top bottom z kz e ∧
      ∀ e', e' < e → ¬ LeavesThrough n n_out bottom top bottom z kz e' ∧ ¬ LeavesThrough n n_out bottom top top z kz e'
  | .transmitted e => LeavesThrough n n_out bottom top top z kz e ∧
      ∀ e', e' < e → ¬ LeavesThrough n n_out bottom top bottom z kz e' ∧ ¬ LeavesThrough n n_out bottom top top z kz e'
  | .trapped => ∀ e, ¬ LeavesThrough n n_out bottom top bottom z kz e ∧ ¬ LeavesThrough n n_out bottom top top z kz e

/-- Fresnel reflectance of unpolarised light at one interface, angles `θ1` and `θ2` on its two sides. -/
def fresnelR (n1 n2 θ1 θ2 : ℝ) : ℝ :=
  (((n1 * Real.cos θ2 - n2 * Real.cos θ1) / (n1 * Real.cos θ2 + n2 * Real.cos θ1)) ^ 2 +
   ((n1 * Real.cos θ1 - n2 * Real.cos θ2) / (n1 * Real.cos θ1 + n2 * Real.cos θ2)) ^ 2) / 2

/-- Fraction of unpolarised light that passes from index `n1` at angle `θ` through a plate of index `ni` (none: no plate) into
index `n2`, all reflections inside the plate included, with the regulariser `1e-9`; nothing passes beyond a critical angle
or along the surface. -/
def platePass (n1 : ℝ) (plate : Option ℝ) (n2 θ : ℝ) : ℝ :=
  let ni := plate.getD n1
  let R1 := fresnelR n1 ni θ (Real.arcsin (n1 * Real.sin θ / ni))
  let R2 := fresnelR ni n2 (Real.arcsin (n1 * Real.sin θ / ni)) (Real.arcsin (n1 * Real.sin θ / n2))
  if ni ≤ n1 * Real.sin θ ∨ n2 ≤ n1 * Real.sin θ ∨ θ = Real.pi / 2 then 0
  else (1 - R1) * (1 - R2) / (1 - R1 * R2 + 1 / 10 ^ 9)

/-- Light at angle `θ` in index `n` leaves into index `n_out` at an angle to the normal of at most `limit`. -/
def SeenWithin (n n_out limit θ : ℝ) : Prop := ∃ φ, IsRefractionAngle φ ∧ Snell n n_out θ φ ∧ φ ≤ limit

/-- One photon of a bundle: fraction of its light that enters the sample; weight with which it arrives at the illuminated
face (`outR`), at the far face (`outT`) or stays in the sample (`trapped`); fraction that escapes at the face; whether the
escaping light, and the light reflected at first incidence, are seen by the detector. -/
structure Photon where
  enter : ℝ
  outR : ℝ
  outT : ℝ
  trapped : ℝ
  escR : ℝ
  escT : ℝ
  seenR : Prop
  seenT : Prop
  seenInc : Prop

namespace Photon
variable {N : ℕ} (p : Fin N → Photon)
/-- light absorbed -/
def absorbed : ℝ := ∑ j, ((p j).enter - (p j).outR - (p j).outT - (p j).trapped)
/-- light escaping through the illuminated face -/
def escapedR : ℝ := ∑ j, (p j).outR * (p j).escR
/-- light escaping through the far face -/
def escapedT : ℝ := ∑ j, (p j).outT * (p j).escT
/-- light whose final state is known -/
def known : ℝ := absorbed p + escapedR p + escapedT p
/-- share of the light escaping through the illuminated face that is seen -/
def shareR : ℝ := max (∑ j, if (p j).seenR then (p j).outR * (p j).escR else 0) (1 / 10 ^ 9) / max (escapedR p) (1 / 10 ^ 9)
/-- share of the light escaping through the far face that is seen -/
def shareT : ℝ := max (∑ j, if (p j).seenT then (p j).outT * (p j).escT else 0) (1 / 10 ^ 9) / max (escapedT p) (1 / 10 ^ 9)

/-- Contribution of photon `j` to the reflectance: seen light that escaped, plus the seen part of what it reflected at first
incidence, plus a part of the light of unknown final state: light sent back at the illuminated face returns there with the
probability `escapedR / known`, light sent back at the far face arrives at the illuminated face as light entering there
would arrive at the far face, trapped light leaves through either face with probability 1/2. -/
def refl (j : Fin N) : ℝ :=
  ((if (p j).seenR then (p j).outR * (p j).escR else 0) + (if (p j).seenInc then 1 - (p j).enter else 0) +
    ((p j).outR * (1 - (p j).escR) * (escapedR p / known p) + (p j).outT * (1 - (p j).escT) * (escapedT p / known p) +
      (p j).trapped / 2) * shareR p) / N

/-- Contribution of photon `j` to the transmittance. -/
def trans (j : Fin N) : ℝ :=
  ((if (p j).seenT then (p j).outT * (p j).escT else 0) +
    ((p j).outT * (1 - (p j).escT) * (escapedR p / known p) + (p j).outR * (1 - (p j).escR) * (escapedT p / known p) +
      (p j).trapped / 2) * shareT p) / N

/-- Contribution of photon `j` to what a goniometer detects: light reflected at first incidence does not reach it, and of the
light of unknown final state only that sent back at the illuminated face is added. -/
def reflGonio (j : Fin N) : ℝ :=
  ((if (p j).seenR then (p j).outR * (p j).escR else 0) +
    (p j).outR * (1 - (p j).escR) * (escapedR p / known p) * shareR p) / N
end Photon

/-- Refractive indices outside, of the sample, of the sample at its surface; of the plates in front and behind; half-angle of
the cone of detection. -/
structure FilmOptics where
  outside : ℝ
  sample : ℝ
  surface : ℝ
  front : Option ℝ
  back : Option ℝ
  limit : ℝ

/-- The photons of a bundle with direction cosines `kz` and weights `w`, which arrive at the illuminated face at events `eR`,
at the far face at events `eT`, or are in the sample at the last event `eS`; angles of incidence `θinc`. -/
def filmPhotons {nev nt : ℕ} (o : FilmOptics) (kz w : Fin nev → Fin nt → ℝ) (eR eT eS : Fin nt → Option (Fin nev))
    (θinc : Fin nt → ℝ) (seenInc : Fin nt → Prop) (j : Fin nt) : Photon :=
  let enter := platePass o.outside o.front o.surface (θinc j)
  let θR := Real.arccos |valueAt (eR j) fun e => kz e j|
  let θT := Real.arccos |valueAt (eT j) fun e => kz e j|
  { enter := enter
    outR := enter * valueAt (eR j) fun e => w e j
    outT := enter * valueAt (eT j) fun e => w e j
    trapped := enter * valueAt (eS j) fun e => w e j
    escR := platePass o.surface o.front o.outside θR
    escT := platePass o.surface o.back o.outside θT
    seenR := SeenWithin o.sample o.outside o.limit θR
    seenT := SeenWithin o.sample o.outside o.limit θT
    seenInc := seenInc j }

end
end Verif.Spec
