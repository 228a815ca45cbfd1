import Verif.Model.Root
import Mathlib.Analysis.SpecialFunctions.Exp
import Mathlib.Analysis.Complex.Exponential
import Mathlib.Analysis.SpecialFunctions.Trigonometric.Basic

/-!
# Model of `conv_circ`

Simplification: exact complex arithmetic, where `np.fft` rounds.  An array is its length and its elements.
-/

namespace Verif.Fft
noncomputable section
open Classical

/-- the phase factor `exp(2 pi i m / n)` of the discrete Fourier transform -/
def phase (n : ℕ) (m : ℝ) : ℂ := Complex.exp (2 * Real.pi * Complex.I * m / n)

/-- `np.fft.fft` of an array of length n, called in /repo/structcol/phase_func_sphere.py:84 -/
def fft (n : ℕ) (s : ℕ → ℂ) (k : ℕ) : ℂ := ∑ j ∈ Finset.range n, s j * phase n (-(j * k))

/-- `np.fft.ifft` of an array of length n, called in /repo/structcol/phase_func_sphere.py:84 -/
def ifft (n : ℕ) (S : ℕ → ℂ) (j : ℕ) : ℂ := (∑ k ∈ Finset.range n, S k * phase n (j * k)) / n

/-- the element used at position i when an array of length n takes part in a product: an array of length 1 is repeated -/
def repeated (n : ℕ) (s : ℕ → ℂ) (i : ℕ) : ℂ := if n = 1 then s 0 else s i

/-- the product of the transforms and the transform back, before `np.real`. /repo/structcol/phase_func_sphere.py:84 -/
def backTransform (na nb : ℕ) (s ker : ℕ → ℝ) (j : ℕ) : ℂ :=
  ifft (max na nb) (fun k => repeated na (fft na fun i => s i) k * repeated nb (fft nb fun i => ker i) k) j

/-- `conv_circ(signal, ker)`: the length and the elements of the result.  The transform of an empty array and the product of
arrays whose lengths differ, neither being 1, are ValueErrors. /repo/structcol/phase_func_sphere.py:78-84 -/
def convCirc (na nb : ℕ) (s ker : ℕ → ℝ) : Except PyErr (ℕ × (ℕ → ℝ)) :=
  if na = 0 ∨ nb = 0 then .error .valueError
  else if na = nb ∨ na = 1 ∨ nb = 1 then .ok (max na nb, fun j => (backTransform na nb s ker j).re)
  else .error .valueError

end
end Verif.Fft
