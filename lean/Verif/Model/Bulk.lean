import Verif.Model.Spheres

/-!
# Model of `calc_pdf` and `calc_scat_bulk` with their effect on the caller's arrays

`gaussian_kde` is a parameter `kde`: from data and weights it makes a density.  Not modelled: plotting.
-/

namespace Verif.Bulk
noncomputable section
open Classical XF Verif.Spheres
open Verif.Spec (V3)

variable {nt : ℕ}

/-- The value of `refl_indices` after `calc_pdf`: `refl_indices[refl_indices != 0] = 1` writes into the caller's array.
/repo/structcol/phase_func_sphere.py:176, 196 -/
def overwritten (ri : Fin nt → ℕ) (j : Fin nt) : ℕ := if ri j ≠ 0 then 1 else ri j

/-- The number of exit angles kept by `calc_pdf`. /repo/structcol/phase_func_sphere.py:168-193 -/
def keptAngles (kz : Option (ℕ → Fin nt → ℝ)) (z : Fin nt → ℝ) (refl trans : Fin nt → ℝ) (ri ti : Fin nt → ℕ) : List ℝ :=
  match kz with
  | some k => kzKept k ri ti
  | none => zKept z refl trans ri ti

/-- `calc_pdf`, and what it leaves in `refl_indices`.  `none` is the NaN returned when no trajectory leaves the sphere.
With `phi_dependent=True`: `np.vstack` needs as many angles nu (kept trajectories) as angles phi (all trajectories), otherwise
ValueError; the density is then called as `pdf(nu, phi_range)`, but a `gaussian_kde` takes one argument: TypeError.
Simplification: `gaussian_kde` may fail earlier, with another error, if the data lie on a line.
/repo/structcol/phase_func_sphere.py:162-276 -/
def calcPdf (kde : List ℝ × List ℝ → ℝ → ℝ) (kz : Option (ℕ → Fin nt → ℝ)) (z : Fin nt → ℝ) (radius : ℝ)
    (refl trans : Fin nt → ℝ) (ri ti : Fin nt → ℕ) (phi_dependent : Bool) :
    Except PyErr (Option (Fin 200 → XF)) × (Fin nt → ℕ) :=
  (if phi_dependent then
      if (keptAngles kz z refl trans ri ti).length = nt ∧ 0 < nt then .error .typeError else .error .valueError
    else do
      let data ← match kz with
        | some k => pdfDataKz k refl trans ri ti
        | none => pdfDataZ z radius refl trans ri ti
      return data.map fun d => pdfArray (kde d),
   overwritten ri)

/-- `calc_scat_bulk`: phase function, scattering and absorption coefficients of a film of structured spheres, and what is left
in `refl_indices`. /repo/structcol/phase_func_sphere.py:603-702 -/
def calcScatBulk (kde : List ℝ × List ℝ → ℝ → ℝ) (refl trans : Fin nt → ℝ) (ri ti : Fin nt → ℕ)
    (norm_refl norm_trans : Fin nt → V3) (volume_fraction diameter n_imag wavelength : ℝ) (phi_dependent : Bool)
    (kz : Option (ℕ → Fin nt → ℝ)) : Except PyErr (Option (Fin 200 → XF) × ℝ × ℝ) × (Fin nt → ℕ) :=
  let radius := diameter / 2
  let mu := calcMuScatAbs refl trans ti volume_fraction radius n_imag wavelength
  let z := fun j => (getExitPos (norm_refl j) (norm_trans j) radius).z
  let p := calcPdf kde kz z radius refl trans ri ti phi_dependent
  (p.1.map fun q => (q, mu.1, mu.2), p.2)

end
end Verif.Bulk
