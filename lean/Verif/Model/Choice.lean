import Verif.Model.Traj

/-!
# `sample_angles` on top of the generator's uniform numbers

In `Verif.Model.Traj` the indices chosen by `rng.choice` are inputs.  Here they are computed, as NumPy does, from uniform
numbers by inversion of the cumulative distribution.
-/

namespace Verif.Traj

noncomputable section
open Classical XF

variable {nt : ℕ}

/-- NumPy's `Generator.choice(n, p=prob)` for the uniform number `u`: `cdf = prob.cumsum(); cdf /= cdf[-1];
idx = cdf.searchsorted(u, side='right')`, the number of entries of the cumulative distribution that are at most `u`.  (Beyond
the end for `u ≥ 1`, which never happens; the model then returns the last index.)  Library code, as used in
/repo/structcol/montecarlo.py:1309, 1326, 1336 -/
def choiceIndex {n : ℕ} (prob : Fin (n + 1) → XF) (u : ℝ) : Fin (n + 1) :=
  let cdf : Fin (n + 1) → XF := fun k => ∑ i, if i ≤ k then prob i else 0
  let count := (Finset.univ.filter fun k => cdf k / cdf (Fin.last n) ≤ fin u).card
  if h : count < n + 1 then ⟨count, h⟩ else Fin.last n

/-- `sample_angles` for a one-dimensional phase function, on uniform numbers: `utheta` those consumed by `rng.choice`, `rand`
those for phi. /repo/structcol/montecarlo.py:1242-1310, 1341-1346 -/
def sampleAnglesRng1 {n : ℕ} (nevents : ℕ) (p : Fin (n + 1) → ℝ) (min_angle : ℝ) (utheta rand : ℕ → Fin nt → ℝ) :
    Except PyErr (Angles nt) :=
  sampleAngles1 nevents p min_angle (fun i j => choiceIndex (probTheta p min_angle) (utheta i j)) rand

/-- `sample_angles` for a two-dimensional phase function, on uniform numbers: first all phi indices, then for each the theta
index. /repo/structcol/montecarlo.py:1312-1346 -/
def sampleAnglesRng2 {n nphi : ℕ} (nevents : ℕ) (p : Fin (n + 1) → Fin (nphi + 1) → ℝ) (min_angle : ℝ)
    (utheta uphi : ℕ → Fin nt → ℝ) : Except PyErr (Angles nt) :=
  let phi_ind : ℕ → Fin nt → Fin (nphi + 1) := fun i j => choiceIndex (probPhi p) (uphi i j)
  sampleAngles2 nevents p min_angle phi_ind fun i j => choiceIndex (probThetaGiven p min_angle (phi_ind i j)) (utheta i j)

end
end Verif.Traj
