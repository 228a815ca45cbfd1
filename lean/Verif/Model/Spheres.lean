import Verif.Model.SingleScat
import Verif.Model.Geometry
import Mathlib.Data.List.Sort
import Mathlib.Data.Finset.Sort

/-!
# Model of /repo/structcol/phase_func_sphere.py

Not modelled: plotting, `gaussian_kde` (a parameter: the density estimate), the phi-dependent branch of `calc_pdf`.
-/

namespace Verif.Spheres
noncomputable section
open Classical XF
open Verif.Traj (linspace pyRound choiceOk probTheta)

variable {nt : ℕ}

open Verif.Spec (V3)

/-- `get_exit_pos`, one trajectory. /repo/structcol/phase_func_sphere.py:35-76 -/
def getExitPos (norm_refl norm_trans : V3) (radius : ℝ) : V3 :=
  let norm : V3 := ⟨norm_trans.x + norm_refl.x, norm_trans.y + norm_refl.y, norm_trans.z + norm_refl.z⟩
  ⟨norm.x * radius, norm.y * radius, norm.z * radius⟩

/-- `trans_indices_scat`: transmission at event 1 (no scattering) does not count. /repo/structcol/phase_func_sphere.py:162-163 -/
def transScat (ti : Fin nt → ℕ) (j : Fin nt) : ℕ := if ti j = 1 then 0 else ti j

/-- an array of event numbers turned into 0 and 1. /repo/structcol/phase_func_sphere.py:176-177, 196-197 -/
def ind (n : ℕ) : ℝ := if n = 0 then 0 else 1

/-- `weights` before and after the removal of zeros. /repo/structcol/phase_func_sphere.py:195-208 -/
def weightOf (refl trans : Fin nt → ℝ) (ri ti : Fin nt → ℕ) (j : Fin nt) : ℝ :=
  refl j * ind (ri j) + trans j * ind (transScat ti j)
def weights (refl trans : Fin nt → ℝ) (ri ti : Fin nt → ℕ) : List ℝ :=
  ((List.finRange nt).map (weightOf refl trans ri ti)).filter (fun w => w ≠ 0)

/-- the exit directions `kz` kept in the branch with `kz` given. /repo/structcol/phase_func_sphere.py:168-173 -/
def kzOf (kz : ℕ → Fin nt → ℝ) (ri ti : Fin nt → ℕ) (j : Fin nt) : ℝ :=
  if 0 < ri j + transScat ti j then kz (ri j + transScat ti j - 1) j else 0
def kzKept (kz : ℕ → Fin nt → ℝ) (ri ti : Fin nt → ℕ) : List ℝ := ((List.finRange nt).map (kzOf kz ri ti)).filter (fun v => v ≠ 0)

/-- the exit heights `z` kept in the other branch. /repo/structcol/phase_func_sphere.py:174-193 -/
def zOf (z : Fin nt → ℝ) (refl trans : Fin nt → ℝ) (ri ti : Fin nt → ℕ) (j : Fin nt) : ℝ :=
  z j * ((if refl j * ind (ri j) ≠ 0 then 1 else 0) + (if trans j * ind (transScat ti j) ≠ 0 then 1 else 0))
def zKept (z : Fin nt → ℝ) (refl trans : Fin nt → ℝ) (ri ti : Fin nt → ℕ) : List ℝ :=
  ((List.finRange nt).map (zOf z refl trans ri ti)).filter (fun v => v ≠ 0)

/-- `nu` of a cosine: `(cos(arccos c) + 1)/2`. /repo/structcol/phase_func_sphere.py:173, 193, 211 -/
def nuOf (c : ℝ) : ℝ := (Real.cos (Real.arccos c) + 1) / 2

/-- the data and weights handed to `gaussian_kde`: the values mirrored at 0 and at 1, the weights three times; `gaussian_kde` raises
ValueError unless there is one weight per datum; without data no estimate is made (NaN, here `none`).
/repo/structcol/phase_func_sphere.py:213-228 -/
def kdeData (nu w : List ℝ) : Except PyErr (Option (List ℝ × List ℝ)) :=
  if nu = [] then .ok none
  else if nu.length = w.length then
    .ok (some (nu.map (fun v => -v) ++ nu ++ nu.map (fun v => -v + 2), w ++ w ++ w))
  else .error .valueError

/-- the data `calc_pdf` (not phi-dependent) hands to the density estimate. /repo/structcol/phase_func_sphere.py:162-228 -/
def pdfDataKz (kz : ℕ → Fin nt → ℝ) (refl trans : Fin nt → ℝ) (ri ti : Fin nt → ℕ) :=
  kdeData ((kzKept kz ri ti).map nuOf) (weights refl trans ri ti)
def pdfDataZ (z : Fin nt → ℝ) (radius : ℝ) (refl trans : Fin nt → ℝ) (ri ti : Fin nt → ℕ) :=
  kdeData ((zKept z refl trans ri ti).map fun v => nuOf (v / radius)) (weights refl trans ri ti)

/-- `pdf_array`: the estimate at 200 angles, divided by its sum. /repo/structcol/phase_func_sphere.py:230-234 -/
def pdfArray (kde : ℝ → ℝ) (i : Fin 200) : XF :=
  let v : Fin 200 → ℝ := fun i => kde ((Real.cos (linspace 0.01 Real.pi 200 i) + 1) / 2)
  fin (v i) / fin (∑ k, v k)

/-- index of the first smallest value among the first `n` (`np.argmin`), 0 if there is none -/
def argmin (n : ℕ) (f : ℕ → ℝ) : ℕ := if h : ∃ i, i < n ∧ ∀ j < n, f i ≤ f j then Nat.find h else 0

/-- `calc_directions`, one sampled direction: the direction of the trajectory whose exit position is closest.  Distances are compared
through `cdist` (Euclidean). `k1 j` is column `j`; no trajectories is a ValueError of `argmin`.
/repo/structcol/phase_func_sphere.py:383-421 -/
def calcDirections (theta phi : ℝ) (inter : ℕ → V3) (n : ℕ) (k1 : ℕ → V3) (radius : ℝ) : Except PyErr V3 :=
  let s : V3 := ⟨radius * Real.cos phi * Real.sin theta, radius * Real.sin phi * Real.sin theta, radius * Real.cos theta⟩
  if n = 0 then .error .valueError
  else .ok (k1 (argmin n fun j => Real.sqrt ((s.x - (inter j).x) ^ 2 + (s.y - (inter j).y) ^ 2 + (s.z - (inter j).z) ^ 2)))

/-- number density of spheres. /repo/structcol/phase_func_sphere.py:499, 578 -/
def numberDensity (volume_fraction radius : ℝ) : ℝ := volume_fraction / (4 / 3 * Real.pi * radius ^ 3)

/-- `calc_d_avg`. /repo/structcol/phase_func_sphere.py:479-504 -/
def calcDAvg (volume_fraction radius : ℝ) : ℝ := 2 * (3 / (4 * Real.pi * numberDensity volume_fraction radius)) ^ ((1:ℝ) / 3)

/-- `calc_mu_scat_abs`: (`mu_scat`, `mu_abs`); `n_imag` is the imaginary part of the index of the matrix.
/repo/structcol/phase_func_sphere.py:506-601 -/
def calcMuScatAbs (refl trans : Fin nt → ℝ) (ti : Fin nt → ℕ) (volume_fraction radius n_imag wavelength : ℝ) : ℝ × ℝ :=
  let number_density := numberDensity volume_fraction radius
  let tot_abs_cross_section := (1 - ∑ j, (refl j + trans j)) * Real.pi * radius ^ 2
  let trans_scat := fun j => if ti j = 1 then 0 else trans j
  let tot_scat_cross_section := (∑ j, (refl j + trans_scat j)) * 2 * Real.pi * radius ^ 2
  let mu_scat := number_density * tot_scat_cross_section
  let mu_abs_sphere := number_density * tot_abs_cross_section
  let mu_abs_matrix := 4 * Real.pi * n_imag / wavelength
  (mu_scat, mu_abs_sphere + mu_abs_matrix * (1 - volume_fraction))

/-! ## Lists of diameters -/

/-- `t` from the polydispersity index. /repo/structcol/phase_func_sphere.py:785, 871 -/
def widthOf (pdi : ℝ) : ℝ := (1 - pdi ^ 2) / pdi ^ 2

/-- `size_distribution` of this module is the one of model.py without normalisation. /repo/structcol/phase_func_sphere.py:704-734 -/
def sizeDistribution (mean t d : ℝ) : ℝ := SingleScat.rawDistribution mean t d

/-- the fraction of the maximum looked for next. /repo/structcol/phase_func_sphere.py:807-811 -/
def nextFraction (f : ℕ × ℕ) : ℕ × ℕ := if f.1 = 1 then (2 * f.2 - 1, 2 * f.2) else (f.1 - 2, f.2)

/-- the radii appended in one turn of the loop. The second index is offset by 300 whatever the number of points; an index past the end is
an IndexError. /repo/structcol/phase_func_sphere.py:801-806 -/
def pickTwo (N : ℕ) (rad pdf : ℕ → ℝ) (f : ℕ × ℕ) : Except PyErr (List ℝ) :=
  let top := (Finset.range N).fold max (pdf 0) pdf
  let i1 := argmin (N / 2) (fun i => |pdf i - (f.1 : ℝ) / f.2 * top|)
  let i2 := argmin (N - N / 2) (fun i => |pdf (N / 2 + i) - (f.1 : ℝ) / f.2 * top|)
  if 300 + i2 < N then .ok [rad i1, rad (300 + i2)] else .error .indexError

/-- the loop. /repo/structcol/phase_func_sphere.py:797-811 -/
def pickLoop (N : ℕ) (rad pdf : ℕ → ℝ) : ℕ → ℕ × ℕ → List ℝ → Except PyErr (List ℝ)
  | 0, _, acc => .ok acc
  | n + 1, f, acc => do
    let two ← pickTwo N rad pdf f
    pickLoop N rad pdf n (nextFraction f) (acc ++ two)

/-- `calc_diam_list` with `equal_spacing=False`; `N` is `num_pdf_points` (at least 2). The loop over `range(0, num_diam - 1, 2)` makes
`num_diam / 2` turns. /repo/structcol/phase_func_sphere.py:736-836 -/
def calcDiamList (num_diam : ℕ) (diameter_mean pdi : ℝ) (N : ℕ) : Except PyErr (List ℝ) :=
  if pdi = 0 then .error .zeroDivision else do
  let radius_mean := diameter_mean / 2
  let diam := linspace 1 (4 * radius_mean) N
  let pdf := fun i => sizeDistribution (2 * radius_mean) (widthOf pdi) (diam i)
  let rad := fun i => diam i / 2
  let max_rad := rad (argmin N fun i => -pdf i)
  let rad_list ← pickLoop N rad pdf (num_diam / 2) (1, 2) [max_rad]
  return (rad_list.insertionSort (· ≤ ·)).map fun r => 2 * r

/-- `calc_diam_list` with `equal_spacing=True`: `np.unique` sorts and removes duplicates.
/repo/structcol/phase_func_sphere.py:774-781 -/
def equalDiamList (num_diam : ℕ) (diameter_mean : ℝ) : List ℝ :=
  let rm := diameter_mean / 2
  let half := (pyRound (((num_diam : ℝ) + 1) / 2)).toNat
  let all : List ℝ := (List.range half).map (linspace (rm / 100) rm half) ++ (List.range half).map (linspace rm (2 * rm) half)
  (all.toFinset.sort (· ≤ ·)).map fun r => 2 * r

/-! ## Sampling -/

/-- `sample_diams`: `draw` are the indices delivered by `rng.choice`, which refuses probabilities that are not. `pdi = 0` is a division
by zero of Python floats. /repo/structcol/phase_func_sphere.py:838-883 -/
def sampleDiams {n : ℕ} (pdi : ℝ) (diam_list : Fin n → ℝ) (mean : ℝ) (draw : ℕ → Fin nt → Fin n) : Except PyErr (ℕ → Fin nt → ℝ) :=
  if pdi = 0 then .error .zeroDivision
  else
    let pdf := fun i => sizeDistribution mean (widthOf pdi) (diam_list i)
    if choiceOk (fun i => fin (pdf i) / fin (∑ k, pdf k)) then .ok fun ev tr => diam_list (draw ev tr) else .error .valueError

/-- `sample_concentration`: the numbers 1, 2, ... with the given probabilities. /repo/structcol/phase_func_sphere.py:885-919 -/
def sampleConcentration {n : ℕ} (p : Fin n → XF) (draw : ℕ → Fin nt → Fin n) : Except PyErr (ℕ → Fin nt → ℕ) :=
  if choiceOk p then .ok fun ev tr => (draw ev tr).val + 1 else .error .valueError

/-- what `sample_angles_step_poly` returns (sines and cosines are those of the angles) -/
structure PolySample (nt : ℕ) where
  theta : ℕ → Fin nt → ℝ
  phi : ℕ → Fin nt → ℝ
  step : ℕ → Fin nt → XF

/-- one turn of the loop over sphere types: the slots with this type's parameter get an angle and a step; `rand` and `draw` are what the
generator delivers for this type and slot.  A type that was not sampled is skipped.
/repo/structcol/phase_func_sphere.py:984-1001 -/
def polyTurn {ns num : ℕ} (nev : ℕ) (p_sphere : Fin ns → Fin num → ℝ) (params : ℕ → Fin nt → ℝ) (mu_scat : Fin ns → ℝ) (param_list : Fin ns → ℝ)
    (rand : Fin ns → ℕ → Fin nt → ℝ) (draw : Fin ns → ℕ → Fin nt → Fin num) (s : PolySample nt) (j : Fin ns) : Except PyErr (PolySample nt) :=
  if ¬ ∃ ev tr, ev < nev ∧ params ev tr = param_list j then .ok s
  else if ¬ choiceOk (probTheta (p_sphere j) 0.01) then .error .valueError
  else .ok
    { s with
      theta := fun ev tr => if params ev tr = param_list j then linspace 0.01 Real.pi num (draw j ev tr) else s.theta ev tr
      step := fun ev tr => if params ev tr = param_list j then fin (-Real.log (1 - rand j ev tr)) * (fin 1 / fin (mu_scat j)) else s.step ev tr }

/-- `sample_angles_step_poly`: angles and steps start as zeros. /repo/structcol/phase_func_sphere.py:922-1009 -/
def sampleAnglesStepPoly {ns num : ℕ} (nev : ℕ) (p_sphere : Fin ns → Fin num → ℝ) (params : ℕ → Fin nt → ℝ) (mu_scat : Fin ns → ℝ)
    (param_list : Fin ns → ℝ) (randPhi : ℕ → Fin nt → ℝ) (rand : Fin ns → ℕ → Fin nt → ℝ) (draw : Fin ns → ℕ → Fin nt → Fin num) :
    Except PyErr (PolySample nt) :=
  (List.finRange ns).foldlM (polyTurn nev p_sphere params mu_scat param_list rand draw)
    { theta := fun _ _ => 0, phi := fun ev tr => 2 * Real.pi * randPhi ev tr, step := fun _ _ => fin 0 }

end
end Verif.Spheres
