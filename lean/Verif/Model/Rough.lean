import Verif.Model.Init
import Mathlib.Analysis.SpecialFunctions.Trigonometric.ArctanDeriv

/-!
# Model of the slope sampling of `coarse_roughness_enter` and of `P_theta_a`, /repo/structcol/montecarlo.py:1407-1582
-/

namespace Verif.Rough
noncomputable section
open Classical XF
open Verif.Traj (linspace choiceOk Drawn)
open Verif.Init
open Verif.Geometry (XV)

variable {nt : ℕ}

/-- `np.exp` -/
def exp : XF → XF
  | fin a => fin (Real.exp a)
  | pinf => pinf
  | ninf => fin 0
  | nan => nan

/-- `P_theta_a`: `sin/r**2/cos**3 * exp(-tan**2/(2 r**2))`. /repo/structcol/montecarlo.py:1555-1582 -/
def pThetaA (theta_a r : ℝ) : XF :=
  let term1 := fin (Real.sin theta_a) / fin (r ^ 2) / fin (Real.cos theta_a ^ 3)
  let term2 := exp (-(fin (Real.tan theta_a ^ 2)) / fin (2 * r ^ 2))
  term1 * term2

/-- `theta_a_full`; `half_pi` is the number `np.pi / 2`, a double slightly below the mathematical half of pi.
/repo/structcol/montecarlo.py:1474 -/
def thetaAFull (half_pi : ℝ) (i : Fin 500) : ℝ := linspace 0 half_pi 500 i

/-- `prob_a`. /repo/structcol/montecarlo.py:1476-1479 -/
def probA (half_pi r : ℝ) (i : Fin 500) : XF := pThetaA (thetaAFull half_pi i) r / ∑ k, pThetaA (thetaAFull half_pi k) r

/-- the slopes `theta_a`: zero if no probability is a number, else drawn by `rng.choice`, which refuses probabilities that are not;
`draw` are the indices the generator delivers. /repo/structcol/montecarlo.py:1474-1484 -/
def slopes (half_pi r : ℝ) (draw : Fin nt → Fin 500) : Except PyErr (Fin nt → ℝ) :=
  if ∀ i, isNaN (probA half_pi r i) then .ok fun _ => 0
  else if choiceOk (probA half_pi r) then .ok fun j => thetaAFull half_pi (draw j)
  else .error .valueError

/-- `coarse_roughness_enter`: (`k0_rough`, `kz0_rot`, `kz0_refl`). Row 0 of `k0` is used, the other rows of the result are zeros.
/repo/structcol/montecarlo.py:1407-1552 -/
def coarseRoughnessEnter (k0 : ℕ → Fin nt → XV) (n_medium n_sample coarse_roughness : ℝ) (boundary : Boundary) (half_pi : ℝ)
    (draw : Fin nt → Fin 500) : Except PyErr ((ℕ → Fin nt → XV) × (Fin nt → XF) × (Fin nt → XF)) :=
  if boundary = .sphere then .error .valueError
  else do
    let theta_a ← slopes half_pi coarse_roughness draw
    let res := fun j => coarseEnter (k0 0 j) n_medium |n_sample| (theta_a j)
    return (firstRow fun j => (res j).1, fun j => (res j).2.1, fun j => (res j).2.2)

end
end Verif.Rough
