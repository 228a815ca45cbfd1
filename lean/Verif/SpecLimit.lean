import Verif.SpecFilm
import Verif.SpecStat

/-!
# Specification of what the estimator of reflectance and transmittance estimates

The averages over the bundle in `Verif.SpecFilm` replaced by expectations over one photon.  Nothing here is taken from /repo's
code.
-/

namespace Verif.Spec
noncomputable section
open Classical MeasureTheory

/-- The fate of a photon: the one that `IsFate` describes (trapped, if there were none). -/
def filmFate {nev : ℕ} (n n_out bottom top : ℝ) (z : Fin (nev + 1) → ℝ) (kz : Fin nev → ℝ) : Fate nev :=
  if h : ∃ f, IsFate n n_out bottom top z kz f then h.choose else .trapped

/-- One photon of unfolded heights `z`, direction cosines `kz` and weights `w` in a smooth film between `bottom` and `top`.  Its
angle of incidence follows by Snell's law from its first direction inside. -/
def smoothPhoton {nev : ℕ} (o : FilmOptics) (bottom top : ℝ) (z : Fin (nev + 2) → ℝ) (kz w : Fin (nev + 1) → ℝ) : Photon :=
  let f := filmFate o.surface o.outside bottom top z kz
  filmPhotons (nt := 1) o (fun e _ => kz e) (fun e _ => w e) (fun _ => f.reflEvent) (fun _ => f.transEvent) (fun _ => f.lastEvent)
    (fun _ => Real.arcsin (o.surface / o.outside * Real.sin (Real.arccos |kz 0|)))
    (fun _ => Real.arccos |kz 0| ≤ o.limit) 0

namespace Photon
variable {Ω : Type} [MeasurableSpace Ω] (P : Measure Ω) (p : Ω → Photon)

/-- expected light escaping through the illuminated face -/
def meanEscR : ℝ := ∫ ω, (p ω).outR * (p ω).escR ∂P
/-- expected light escaping through the far face -/
def meanEscT : ℝ := ∫ ω, (p ω).outT * (p ω).escT ∂P
/-- the part of `meanEscR` that is seen -/
def meanSeenR : ℝ := ∫ ω, (if (p ω).seenR then (p ω).outR * (p ω).escR else 0) ∂P
/-- the part of `meanEscT` that is seen -/
def meanSeenT : ℝ := ∫ ω, (if (p ω).seenT then (p ω).outT * (p ω).escT else 0) ∂P
/-- expected light reflected at first incidence and seen -/
def meanInc : ℝ := ∫ ω, (if (p ω).seenInc then 1 - (p ω).enter else 0) ∂P
/-- expected light sent back at the illuminated face -/
def meanBackR : ℝ := ∫ ω, (p ω).outR * (1 - (p ω).escR) ∂P
/-- expected light sent back at the far face -/
def meanBackT : ℝ := ∫ ω, (p ω).outT * (1 - (p ω).escT) ∂P
/-- expected light still in the sample at the end -/
def meanTrapped : ℝ := ∫ ω, (p ω).trapped ∂P
/-- expected light whose final state is known: absorbed or escaped -/
def meanKnown : ℝ := ∫ ω, ((p ω).enter - (p ω).outR - (p ω).outT - (p ω).trapped) ∂P + meanEscR P p + meanEscT P p

/-- share of the escaping light that is seen (1 if nothing escapes) -/
def meanShare (seen escaped : ℝ) : ℝ := if escaped = 0 then 1 else seen / escaped

/-- the reflectance that is estimated -/
def meanRefl : ℝ :=
  meanSeenR P p + meanInc P p +
    (meanBackR P p * (meanEscR P p / meanKnown P p) + meanBackT P p * (meanEscT P p / meanKnown P p) + meanTrapped P p / 2) *
      meanShare (meanSeenR P p) (meanEscR P p)

/-- the transmittance that is estimated -/
def meanTrans : ℝ :=
  meanSeenT P p +
    (meanBackT P p * (meanEscR P p / meanKnown P p) + meanBackR P p * (meanEscT P p / meanKnown P p) + meanTrapped P p / 2) *
      meanShare (meanSeenT P p) (meanEscT P p)
end Photon

end
end Verif.Spec
