import Verif.Model.Simulation
import Verif.Model.Choice

/-!
# Simulations that draw from a random number generator

In the other parts of the model the numbers that the generator delivers are inputs.  Here they come from generators with a state: the one the
caller passes as `rng`, and the module-wide one that is used without.
-/

namespace Verif.Rng
noncomputable section
open Classical XF Verif.Spec Verif.Traj Verif.Init Verif.Simulation

variable {nt : ℕ}

/-- A NumPy generator: all the numbers it will deliver (`rng.random`), and how many it has delivered. -/
structure Gen where
  stream : ℕ → ℝ
  pos : ℕ

/-- The next `nt` numbers: `rng.random(nt)`, and what `rng.uniform(lo, hi, nt)` and `rng.choice(..., nt, p=...)` work with. -/
def Gen.vec (g : Gen) (nt : ℕ) : Fin nt → ℝ := fun j => g.stream (g.pos + j)

/-- The next `rows * nt` numbers as an array, row by row: `rng.random((rows, nt))`, or `[rng.choice(..., nt, ...) for i in range(rows)]`. -/
def Gen.table (g : Gen) (rows nt : ℕ) : ℕ → Fin nt → ℝ := fun i j => if i < rows then g.stream (g.pos + i * nt + j) else 0

/-- The generators of a program: the caller's and `sc.rng`. /repo/structcol/__init__.py:151-155 -/
structure World where
  own : Gen
  module : Gen

/-- the generator a function works with: `if rng is None: rng = sc.rng`. /repo/structcol/montecarlo.py:647-648, 1272-1273, 1379-1380 -/
def World.gen (w : World) (given : Bool) : Gen := if given then w.own else w.module

/-- after `n` numbers have been drawn from it -/
def World.advance (w : World) (given : Bool) (n : ℕ) : World :=
  if given then { w with own := ⟨w.own.stream, w.own.pos + n⟩ } else { w with module := ⟨w.module.stream, w.module.pos + n⟩ }

/-- The random numbers of `initialize`, in the order in which they are drawn.  `facet` turns a uniform number into the slope angle that
`rng.choice` picks (none if all probabilities are NaN: then the angles are 0 and nothing is drawn).  Simplification: without the phases of the fields,
which are drawn last. /repo/structcol/montecarlo.py:647-723, 802, 1476-1487 -/
def initializeRng (given : Bool) (a : Args nt) (facet : Option (ℝ → ℝ)) (w : World) : Except PyErr (Props0 nt × World) :=
  match a.boundary with
  | .film =>
    if a.sample_diameter.isSome then .error .valueError
    else
      let ux := (w.gen given).vec nt
      let w := w.advance given nt
      let uy := (w.gen given).vec nt
      let w := w.advance given nt
      let ut := if a.theta_data.isSome then a.ut else (w.gen given).vec nt
      let w := if a.theta_data.isSome then w else w.advance given nt
      let up := if a.phi_data.isSome then a.up else (w.gen given).vec nt
      let w := if a.phi_data.isSome then w else w.advance given nt
      let slope : Fin nt → ℝ := if a.coarse_roughness = 0 then a.theta_a else
        match facet with
        | none => fun _ => 0
        | some f => fun j => f ((w.gen given).vec nt j)
      let w := if a.coarse_roughness = 0 ∨ facet.isNone then w else w.advance given nt
      (initializeTraj { a with ux := ux, uy := uy, ut := ut, up := up, theta_a := slope }).map fun p => (p, w)
  | .sphere =>
    if a.sample_diameter.isNone then .error .valueError
    else
      let ur := (w.gen given).vec nt
      let w := w.advance given nt
      let uth := (w.gen given).vec nt
      let w := w.advance given nt
      (initializeTraj { a with ur := ur, uth := uth }).map fun p => (p, w)
  | .other => (initializeTraj a).map fun p => (p, w)

/-- The random numbers of `sample_angles` for a phase function of theta: first those for phi, then those for theta.
/repo/structcol/montecarlo.py:1242-1310 -/
def sampleAnglesRng {n : ℕ} (given : Bool) (nevents : ℕ) (p : Fin (n + 1) → ℝ) (min_angle : ℝ) (w : World) :
    Except PyErr (Angles nt × World) :=
  let rand := (w.gen given).table (nevents - 1) nt
  let w := w.advance given ((nevents - 1) * nt)
  let utheta := (w.gen given).table (nevents - 1) nt
  let w := w.advance given ((nevents - 1) * nt)
  (sampleAnglesRng1 nevents p min_angle utheta rand).map fun r => (r, w)

/-- The random numbers of `sample_step`. /repo/structcol/montecarlo.py:1379-1405 -/
def sampleStepRng (given : Bool) (nevents nt : ℕ) (mu_scat : ℝ) (mu_scat_mie : Option ℝ) (fine_roughness : ℝ) (w : World) :
    Except PyErr ((ℕ → Fin nt → XF) × World) :=
  let rand := (w.gen given).table nevents nt
  let w := w.advance given (nevents * nt)
  let mie := fun i => (w.gen given).stream ((w.gen given).pos + i)
  let w := if mu_scat_mie.isSome then w.advance given (pyRound (nt * fine_roughness)).toNat else w
  (sampleStep nt mu_scat mu_scat_mie fine_roughness rand mie).map fun r => (r, w)

/-- A simulation in which all functions get the same `rng` (or none): `initialize`, `sample_angles`, `sample_step`, `absorb`, `scatter`, `move`, in
this order.  The draws in `a` and `S` are not used.
/repo/structcol/montecarlo.py:490-829, 1242-1405, 172-237, 413-439 -/
def simulateRng {n : ℕ} (given : Bool) (nevents : ℕ) (a : Args nt) (facet : Option (ℝ → ℝ)) (S : Sampling nt (n + 1)) (w : World) :
    Except PyErr (Trajs nt × World) := do
  let (p0, w) ← initializeRng given a facet w
  let (ang, w) ← sampleAnglesRng given nevents S.p S.min_angle w
  let (step, w) ← sampleStepRng given nevents nt S.mu_scat S.mu_scat_mie S.fine_roughness w
  let s := fun i j => val (step i j)
  let wt := absorb p0.weight0 S.mu_abs s
  let k := scatter nevents (fun i j => valV (p0.k0 i j)) ang.sintheta ang.costheta ang.sinphi ang.cosphi
  let r := move (fun i j => valV (p0.r0 i j)) s k
  return ({ position := r, direction := k, weight := wt
            kz0_rot := p0.kz0_rot.map fun f j => val (f j)
            kz0_refl := p0.kz0_refl.map fun f j => val (f j) }, w)

/-- The whole run of a film with a generator: simulate `nev + 1` events, then `calc_refl_trans`, which draws nothing for a film.
/repo/structcol/tests/test_detector.py:595-637 -/
def runFilmRng {n : ℕ} (given : Bool) (nev : ℕ) (a : Args nt) (facet : Option (ℝ → ℝ)) (S : Sampling nt (n + 1)) (d : DetArgs) (w : World) :
    Except PyErr (Weights.RT nt × World) := do
  let (t, w) ← simulateRng given (nev + 1) a facet S w
  let rt ← calcReflTransFilm nev d t
  return (rt, w)

end
end Verif.Rng
