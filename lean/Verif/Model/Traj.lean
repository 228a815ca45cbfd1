import Verif.Model.Root
import Verif.Spec
import Mathlib.Analysis.SpecialFunctions.Exp
import Mathlib.Analysis.SpecialFunctions.Log.Basic
import Mathlib.Data.Complex.Basic
import Mathlib.Analysis.SpecialFunctions.Complex.Circle
import Mathlib.Tactic.LinearCombination

/-!
# Model of the class `Trajectory` and of the sampling functions in /repo/structcol/montecarlo.py

Arrays of shape (events, trajectories) are functions `ℕ → Fin nt → α`; only rows below the number of events are meaningful.
An array of shape (3, events, trajectories) is a function `ℕ → Fin nt → V3`.
-/

namespace Verif.Traj

noncomputable section
open Classical XF Verif.Spec

variable {nt : ℕ}

/-- `np.cumsum(a, axis=0)`: row `i` of the result is the sum of rows `0..i`. -/
def cumsum {α : Type} [Add α] (a : ℕ → α) : ℕ → α
  | 0 => a 0
  | i + 1 => cumsum a i + a (i + 1)

/-- `Trajectory.absorb`: `weight * exp(-(mu_abs * cumsum(step_size)))`. /repo/structcol/montecarlo.py:172-189 -/
def absorb (weight : ℕ → Fin nt → ℝ) (mu_abs : ℝ) (step_size : ℕ → Fin nt → ℝ) : ℕ → Fin nt → ℝ :=
  fun i j => weight i j * Real.exp (-(mu_abs * cumsum (fun n => step_size n j) i))

/-- The three assignments in the loop body of `scatter`, for one trajectory: rows `kn[:, n]` from `kn[:, n-1]`.
/repo/structcol/montecarlo.py:225-234 -/
def turn (st ct sp cp : ℝ) (k : V3) : V3 :=
  ⟨(k.x * ct + k.z * st) * cp - k.y * sp,
   (k.x * ct + k.z * st) * sp + k.y * cp,
   -k.x * st + k.z * ct⟩

/-- Body of the loop of `scatter` at event `n`: row `n` is overwritten, for all trajectories.
/repo/structcol/montecarlo.py:218-234 -/
def scatterBody (st ct sp cp : ℕ → Fin nt → ℝ) (kn : ℕ → Fin nt → V3) (n : ℕ) : ℕ → Fin nt → V3 :=
  Function.update kn n fun j => turn (st (n - 1) j) (ct (n - 1) j) (sp (n - 1) j) (cp (n - 1) j) (kn (n - 1) j)

/-- `Trajectory.scatter`: the loop `for n in np.arange(1, nevents)`, working in place on the direction array.
/repo/structcol/montecarlo.py:191-237 -/
def scatter (nevents : ℕ) (kn : ℕ → Fin nt → V3) (st ct sp cp : ℕ → Fin nt → ℝ) : ℕ → Fin nt → V3 :=
  (List.range' 1 (nevents - 1)).foldl (scatterBody st ct sp cp) kn

/-- `V3` addition as `+`, for `cumsum` -/
instance : Add V3 := ⟨V3.add⟩

/-- `displacement[:, 1:, :] = step * direction` (row 0 keeps the initial position; `displacement` is the position array
itself). /repo/structcol/montecarlo.py:427-433 -/
def displacement (position : ℕ → Fin nt → V3) (step : ℕ → Fin nt → ℝ) (direction : ℕ → Fin nt → V3) : ℕ → Fin nt → V3
  | 0, j => position 0 j
  | i + 1, j => V3.smul (step i j) (direction i j)

/-- `Trajectory.move`: positions are the cumulative sums of the displacements.  Simplification: positions and steps are
numbers in the same unit (the code converts or carries units). /repo/structcol/montecarlo.py:413-439 -/
def move (position : ℕ → Fin nt → V3) (step : ℕ → Fin nt → ℝ) (direction : ℕ → Fin nt → V3) : ℕ → Fin nt → V3 :=
  fun i j => cumsum (fun n => displacement position step direction n j) i

/-- Python's `round` of a float to an integer: to nearest, ties to even. -/
def pyRound (x : ℝ) : ℤ :=
  if x - ⌊x⌋ < 1 / 2 then ⌊x⌋ else if 1 / 2 < x - ⌊x⌋ then ⌊x⌋ + 1 else if Even ⌊x⌋ then ⌊x⌋ else ⌊x⌋ + 1

/-- `sample_step`.  `rand` and `rand_ntraj` are the numbers delivered by the generator; `mu_scat_mie` is present when
`mu_scat` has two elements. /repo/structcol/montecarlo.py:1349-1405 -/
def sampleStep (nt : ℕ) (mu_scat : ℝ) (mu_scat_mie : Option ℝ) (fine_roughness : ℝ) (rand : ℕ → Fin nt → ℝ)
    (rand_ntraj : ℕ → ℝ) : Except PyErr (ℕ → Fin nt → XF) :=
  if 1 < fine_roughness ∨ fine_roughness < 0 then .error .valueError
  else
    let step : ℕ → Fin nt → XF := fun i j => fin (-Real.log (1 - rand i j)) / fin mu_scat
    match mu_scat_mie with
    | none => .ok step
    | some mu_mie =>
      let ntraj_mie := (pyRound (nt * fine_roughness)).toNat
      .ok fun i j => if i = 0 ∧ j.val < ntraj_mie then fin (-Real.log (1 - rand_ntraj j)) / fin mu_mie else step i j

/-- `np.linspace(a, b, num)`: entry `i`. -/
def linspace (a b : ℝ) (num : ℕ) (i : ℕ) : ℝ := if num = 1 then a else a + i * ((b - a) / (num - 1))

/-- The sampling probabilities for theta in `sample_angles`, phase function of theta only:
`prob = p * sin(thetas) * 2 pi; prob / sum(prob)`. /repo/structcol/montecarlo.py:1291-1306 -/
def probTheta {num : ℕ} (p : Fin num → ℝ) (min_angle : ℝ) : Fin num → XF :=
  let prob : Fin num → ℝ := fun i => p i * Real.sin (linspace min_angle Real.pi num i) * 2 * Real.pi
  fun i => fin (prob i) / fin (∑ k, prob k)

/-- The values returned by `sample_angles`. /repo/structcol/montecarlo.py:1346 -/
structure Angles (nt : ℕ) where
  sintheta : ℕ → Fin nt → ℝ
  costheta : ℕ → Fin nt → ℝ
  sinphi : ℕ → Fin nt → ℝ
  cosphi : ℕ → Fin nt → ℝ
  theta : ℕ → Fin nt → ℝ
  phi : ℕ → Fin nt → ℝ
  /-- number of rows -/
  rows : ℕ

/-- sines and cosines of the sampled angles. /repo/structcol/montecarlo.py:1341-1346 -/
def mkAngles (rows : ℕ) (theta phi : ℕ → Fin nt → ℝ) : Angles nt :=
  ⟨fun i j => Real.sin (theta i j), fun i j => Real.cos (theta i j), fun i j => Real.sin (phi i j),
    fun i j => Real.cos (phi i j), theta, phi, rows⟩

/-- `rng.choice(values, size, p=prob)`: NumPy raises ValueError when a probability is negative or NaN or when they do not
sum to 1; otherwise every draw is one of the indices whose probability is positive.  `draws` is what the generator would
deliver; the model is only told that it is an index, and a draw of probability 0 never happens (`Drawn`). -/
def choiceOk {num : ℕ} (prob : Fin num → XF) : Prop := (∀ i, (fin 0 : XF) ≤ prob i) ∧ ∑ i, prob i = fin 1

/-- the draws a generator can deliver for the probabilities `prob` -/
def Drawn {num : ℕ} {ι : Type} (prob : Fin num → XF) (draw : ι → Fin num) : Prop := ∀ i, (fin 0 : XF) < prob (draw i)

/-- `sample_angles` for a one-dimensional phase function.  `draw` are the indices chosen by `rng.choice`, `rand` the
uniform draws. /repo/structcol/montecarlo.py:1242-1346 -/
def sampleAngles1 {num : ℕ} (nevents : ℕ) (p : Fin num → ℝ) (min_angle : ℝ) (draw : ℕ → Fin nt → Fin num)
    (rand : ℕ → Fin nt → ℝ) : Except PyErr (Angles nt) :=
  let rows := nevents - 1
  if rows = 0 ∨ choiceOk (probTheta p min_angle) then
    .ok (mkAngles rows (fun i j => linspace min_angle Real.pi num (draw i j)) (fun i j => 2 * Real.pi * rand i j))
  else .error .valueError

/-- marginal probabilities of phi: `p_phi/np.sum(p_phi)`. /repo/structcol/montecarlo.py:1315-1326 -/
def probPhi {num num_phi : ℕ} (p : Fin num → Fin num_phi → ℝ) : Fin num_phi → XF :=
  fun k => fin (∑ i, p i k) / fin (∑ k', ∑ i, p i k')

/-- conditional probabilities of theta given the phi index: `p_theta/np.sum(p_theta)`.
/repo/structcol/montecarlo.py:1335-1337 -/
def probThetaGiven {num num_phi : ℕ} (p : Fin num → Fin num_phi → ℝ) (min_angle : ℝ) (k : Fin num_phi) : Fin num → XF :=
  let pt : Fin num → ℝ := fun i => p i k * Real.sin (linspace min_angle Real.pi num i)
  fun i => fin (pt i) / fin (∑ i', pt i')

/-- `sample_angles` for a two-dimensional phase function. /repo/structcol/montecarlo.py:1312-1346 -/
def sampleAngles2 {num num_phi : ℕ} (nevents : ℕ) (p : Fin num → Fin num_phi → ℝ) (min_angle : ℝ)
    (drawPhi : ℕ → Fin nt → Fin num_phi) (drawTheta : ℕ → Fin nt → Fin num) : Except PyErr (Angles nt) :=
  let rows := nevents - 1
  if rows = 0 ∨ (choiceOk (probPhi p) ∧ ∀ i j, i < rows → choiceOk (probThetaGiven p min_angle (drawPhi i j))) then
    .ok (mkAngles rows (fun i j => linspace min_angle Real.pi num (drawTheta i j))
      (fun i j => linspace min_angle (2 * Real.pi) num_phi (drawPhi i j)))
  else .error .valueError

/-! ## Fields -/

/-- a complex field vector -/
@[ext] structure C3 where
  x : ℂ
  y : ℂ
  z : ℂ

/-- The first loop of `calc_fields` on the local field components: `Ex = S2*Ex + S3*Ey` and then `Ey = S4*Ex + S1*Ey` with
the *new* `Ex`. /repo/structcol/montecarlo.py:343-344 -/
def mieStep (S1 S2 S3 S4 : ℂ) (E : ℂ × ℂ) : ℂ × ℂ :=
  let Ex := S2 * E.1 + S3 * E.2
  let Ey := S4 * Ex + S1 * E.2
  (Ex, Ey)

/-- local `(Ex, Ey)` after `n` scattering events. /repo/structcol/montecarlo.py:342-350 -/
def localField (S1 S2 S3 S4 : ℕ → ℂ) (E0 : ℂ × ℂ) : ℕ → ℂ × ℂ
  | 0 => E0
  | n + 1 => mieStep (S1 n) (S2 n) (S3 n) (S4 n) (localField S1 S2 S3 S4 E0 n)

/-- The field array after the first loop, one trajectory: rows 0 and 1 keep the x and y components they had, row `n+2` is the
local field after `n+1` events; the z components are left alone.
/repo/structcol/montecarlo.py:326-350 -/
def fieldsLocal (nevents : ℕ) (En : ℕ → C3) (S1 S2 S3 S4 : ℕ → ℂ) : ℕ → C3
  | 0 => En 0
  | 1 => En 1
  | n + 2 => if n + 2 ≤ nevents then
      let E := localField S1 S2 S3 S4 ((En 0).x, (En 0).y) (n + 1)
      ⟨E.1, E.2, (En (n + 2)).z⟩ else En (n + 2)

/-- `turn` on complex vectors. /repo/structcol/montecarlo.py:380-384 -/
def turnC (st ct sp cp : ℝ) (k : C3) : C3 :=
  ⟨(k.x * ct + k.z * st) * cp - k.y * sp,
   (k.x * ct + k.z * st) * sp + k.y * cp,
   -k.x * st + k.z * ct⟩

/-- Body of the rotation loop at `n`: all rows from `n` on are rotated by the angles of row `n-2`.
/repo/structcol/montecarlo.py:380-385 -/
def rotateBody (st ct sp cp : ℕ → ℝ) (En : ℕ → C3) (n : ℕ) : ℕ → C3 :=
  fun m => if n ≤ m then turnC (st (n - 2)) (ct (n - 2)) (sp (n - 2)) (cp (n - 2)) (En m) else En m

/-- The rotation loop `for n in np.arange(2, nevents + 1)`. /repo/structcol/montecarlo.py:375-385 -/
def fieldsGlobal (nevents : ℕ) (En : ℕ → C3) (st ct sp cp : ℕ → ℝ) : ℕ → C3 :=
  (List.range' 2 (nevents - 1)).foldl (rotateBody st ct sp cp) En

/-- `step_phase_factor[i] = exp(1j * |k| * (|k| * cumsum(step)[i]))`. /repo/structcol/montecarlo.py:394-395 -/
def stepPhase (k : ℝ) (step : ℕ → ℝ) (i : ℕ) : ℂ := Complex.exp (Complex.I * (|k| * (|k| * cumsum step i) : ℝ))

/-- rows 1.. are multiplied by the phase factor. /repo/structcol/montecarlo.py:401-403 -/
def fieldsPhase (En : ℕ → C3) (k : ℝ) (step : ℕ → ℝ) : ℕ → C3
  | 0 => En 0
  | i + 1 => ⟨(En (i + 1)).x * stepPhase k step i, (En (i + 1)).y * stepPhase k step i, (En (i + 1)).z * stepPhase k step i⟩

/-- squared magnitude of a complex vector -/
def C3.normSq (v : C3) : ℝ := Complex.normSq v.x + Complex.normSq v.y + Complex.normSq v.z

/-- `normalize(..., return_nan=False)` for complex components: zero magnitudes are replaced by 1 before dividing.
/repo/structcol/__init__.py:73-97, /repo/structcol/montecarlo.py:405-409 -/
def normalizeC (v : C3) : C3 :=
  let m : ℝ := Real.sqrt v.normSq
  let m : ℝ := if m = 0 then 1 else m
  ⟨v.x / m, v.y / m, v.z / m⟩

/-- `Trajectory.calc_fields` for one trajectory, without `tir_refl_bool`.  `S1..S4` are the elements of the Mie amplitude
scattering matrix for the sampled angles (computed by pymie, not modelled). `fine_roughness` only enters an unused variable.
/repo/structcol/montecarlo.py:239-411 -/
def calcFields (nevents : ℕ) (En : ℕ → C3) (S1 S2 S3 S4 : ℕ → ℂ) (st ct sp cp : ℕ → ℝ) (k : ℝ) (step : ℕ → ℝ) : ℕ → C3 :=
  fun m => normalizeC (fieldsPhase (fieldsGlobal nevents (fieldsLocal nevents En S1 S2 S3 S4) st ct sp cp) k step m)

end
end Verif.Traj
