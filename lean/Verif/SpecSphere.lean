import Verif.SpecFilm

/-!
# Specification of the estimator of reflectance and transmittance of a sphere

What `calc_refl_trans(..., boundary='sphere')` documents for one bundle of simulated photons, when photons sent back at the
surface are not run again.  Real numbers and textbook optics only; nothing here is taken from /repo's code.
-/

namespace Verif.Spec
noncomputable section
open Classical

namespace Photon
variable {N : ℕ} (p : Fin N → Photon)

/-- Light of photon `j` whose final state is unknown: sent back at the surface, or still inside at the last event. -/
def unknown (j : Fin N) : ℝ := (p j).outR * (1 - (p j).escR) + (p j).outT * (1 - (p j).escT) + (p j).trapped

/-- Contribution of photon `j` to the reflectance of a sphere: seen light that escaped, the seen part of what was reflected at
first incidence, and half of the light of unknown final state, of which a detector sees the share that it sees of the light
known to escape. -/
def reflSphere (j : Fin N) : ℝ :=
  ((if (p j).seenR then (p j).outR * (p j).escR else 0) + (if (p j).seenInc then 1 - (p j).enter else 0) +
    unknown p j / 2 * shareR p) / N

/-- Contribution of photon `j` to the transmittance of a sphere. -/
def transSphere (j : Fin N) : ℝ :=
  ((if (p j).seenT then (p j).outT * (p j).escT else 0) + unknown p j / 2 * shareT p) / N
end Photon

/-- Photons of a ball of radius `R`: entering at points `p0` (relative to the centre) with directions `k0` inside, of
directions `k` and weights `w`; the photons that leave cross the surface at `q` (relative to the centre). -/
def ballPhotons {nev nt : ℕ} (o : FilmOptics) (R : ℝ) (p0 k0 : Fin nt → V3) (k : Fin nev → Fin nt → V3)
    (w : Fin nev → Fin nt → ℝ) (q : Fin nt → V3) (eR eT eS : Fin nt → Option (Fin nev)) (j : Fin nt) : Photon :=
  let θin := Real.arccos (V3.dot (V3.smul (-1 / R) (p0 j)) (k0 j))
  let enter := platePass o.outside o.front o.surface θin
  let θR := Real.arccos (valueAt (eR j) fun e => V3.dot (V3.smul (1 / R) (q j)) (k e j))
  let θT := Real.arccos (valueAt (eT j) fun e => V3.dot (V3.smul (1 / R) (q j)) (k e j))
  { enter := enter
    outR := enter * valueAt (eR j) fun e => w e j
    outT := enter * valueAt (eT j) fun e => w e j
    trapped := enter * valueAt (eS j) fun e => w e j
    escR := platePass o.surface o.front o.outside θR
    escT := platePass o.surface o.back o.outside θT
    seenR := SeenWithin o.sample o.outside o.limit θR
    seenT := SeenWithin o.sample o.outside o.limit θT
    seenInc := θin ≤ o.limit }

/-- Event `e` is the first one after which a photon at `pos` is outside the ball of radius `R` around `c`. -/
def LeavesBall {nev : ℕ} (R : ℝ) (c : V3) (pos : Fin (nev + 1) → V3) (e : Fin nev) : Prop :=
  R * R < (V3.sub (pos e.succ) c).normSq ∧ ∀ e', e' < e → (V3.sub (pos e'.succ) c).normSq ≤ R * R

/-- Fate of a photon in a ball, its direction outside having the z component `kz e` if it leaves at event `e` (`none`: it does
not get out): back towards the source means reflected, onwards transmitted. -/
def IsBallFate {nev : ℕ} (R : ℝ) (c : V3) (pos : Fin (nev + 1) → V3) (kz : Fin nev → Option ℝ) : Fate nev → Prop
  | .reflected e => LeavesBall R c pos e ∧ ∃ z, kz e = some z ∧ z < 0
  | .transmitted e => LeavesBall R c pos e ∧ ∃ z, kz e = some z ∧ 0 < z
  | .trapped => ∀ e, LeavesBall R c pos e → kz e = none ∨ kz e = some 0

end
end Verif.Spec
