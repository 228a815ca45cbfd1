import Verif.Model.Root
import Verif.Model.CargilleData
import Mathlib.Analysis.SpecialFunctions.Pow.Complex

/-!
# Model of /repo/structcol/refractive_index.py

Wavelengths are numbers of micrometres.
-/

namespace Verif.Index

noncomputable section
open Classical XF

/-! ## Dispersion formulas -/

/-- a Sellmeier term `b*w*w/(w*w - c)` -/
def sellmeier (b c : ℝ) (w : XF) : XF := fin b * w * w / (w * w - fin c)

/-- /repo/structcol/refractive_index.py:68-76 -/
def water (w : XF) : XF :=
  XF.sqrt (sellmeier 5.684027565e-1 5.101829712e-3 w + sellmeier 1.726177391e-1 1.821153936e-2 w +
    sellmeier 2.086189578e-2 2.620722293e-2 w + sellmeier 1.130748688e-1 1.069792721e1 w + fin 1)

/-- /repo/structcol/refractive_index.py:85-86 -/
def polystyrene (w : XF) : XF := XF.sqrt (sellmeier 1.4435 0.020216 w + fin 1)

/-- /repo/structcol/refractive_index.py:93-98 -/
def pmma (w : XF) : XF :=
  XF.sqrt (fin 2.1778 + fin 6.1209e-3 * w * w - fin 1.5004e-3 * w * w * w * w + fin 2.3678e-2 / w / w
    - fin 4.2137e-3 / w / w / w / w + fin 7.3417e-4 / w / w / w / w / w / w
    - fin 4.5042e-5 / w / w / w / w / w / w / w / w)

/-- /repo/structcol/refractive_index.py:104-106 -/
def rutile (w : XF) : XF := XF.sqrt (fin 5.913 + fin 0.2441 / (w * w - fin 0.0803))

/-- /repo/structcol/refractive_index.py:113-118 -/
def fusedSilica (w : XF) : XF :=
  XF.sqrt (fin 1 + sellmeier 0.6961663 (0.0684043 ^ 2) w + sellmeier 0.4079426 (0.1162414 ^ 2) w +
    sellmeier 0.8974794 (9.896161 ^ 2) w)

/-- /repo/structcol/refractive_index.py:123-124 -/
def sodaLimeGlass (w : XF) : XF := fin 1.5130 - fin 0.003169 * w * w + fin 0.003962 / (w * w)

/-- /repo/structcol/refractive_index.py:131-132 -/
def zirconia (w : XF) : XF := XF.sqrt (fin 1 + sellmeier 3.3037 (0.1987971 ^ 2) w)

/-- /repo/structcol/refractive_index.py:138-139 (`w**2`, `w**4` as products) -/
def ethanol (w : XF) : XF := fin 1.35265 + fin 0.00306 / (w * w) + fin 0.00002 / (w * w * w * w)

/-- /repo/structcol/refractive_index.py:143 -/
def vacuum (w : XF) : XF := fin 1 * w / w

/-- /repo/structcol/refractive_index.py:151-153 -/
def brookite (w : XF) : XF :=
  XF.sqrt (fin 2.9858 + sellmeier 2.1036 (0.287 ^ 2) w - fin 0.18 * w * w + fin 1)

/-- /repo/structcol/refractive_index.py:157-158 -/
def anatase (w : XF) : XF := fin 2.1526 + fin 4.1155e-2 / (w * w) + fin 2.1798e-3 / (w * w * w * w)

/-- The dictionary `n_dict`, in the order of the source. /repo/structcol/refractive_index.py:60-159 -/
def nDict : List (String × (XF → XF)) :=
  [("water", water), ("polystyrene", polystyrene), ("pmma", pmma), ("rutile", rutile), ("fused silica", fusedSilica),
   ("soda lime glass", sodaLimeGlass), ("zirconia", zirconia), ("ethanol", ethanol), ("vacuum", vacuum),
   ("brookite", brookite), ("anatase", anatase)]

/-- Round to two decimals (`.round(2)`): nearest multiple of 0.01, exact ties to even. -/
def round2 (x : ℝ) : ℝ :=
  let y := x * 100
  (if y - ⌊y⌋ < 1 / 2 then (⌊y⌋ : ℝ) else if 1 / 2 < y - ⌊y⌋ then (⌊y⌋ : ℝ) + 1
    else if Even ⌊y⌋ then (⌊y⌋ : ℝ) else (⌊y⌋ : ℝ) + 1) / 100

/-- `scipy.interpolate.interp1d(kind='linear')` on an increasing table: on the first segment whose right end is not below
the query, the straight line through the two neighbouring data.  (scipy locates the segment by `searchsorted`.) -/
def lerpAux (x : ℝ) : List (ℝ × ℝ) → Option ℝ
  | (x0, y0) :: (x1, y1) :: rest =>
    if x ≤ x1 then some (y0 + (y1 - y0) / (x1 - x0) * (x - x0)) else lerpAux x ((x1, y1) :: rest)
  | _ => none

/-- linear interpolation with an explicit result `below`/`above` outside the table -/
def interp1d {α : Type} (ok : ℝ → α) (below above : α) (tab : List (ℝ × ℝ)) (x : ℝ) : α :=
  match tab with
  | [] => below
  | (x0, _) :: _ => if x < x0 then below else
    match lerpAux x tab with
    | some y => ok y
    | none => above

/-- `n`.  `wavelen` is in micrometres; `unit` is the number of micrometres in the unit of `wavelength_data` (1 for um, 0.001
for nm).  The query is converted to that unit and rounded to two decimals; `interp1d` raises ValueError outside the table.
Only `kind='linear'` is modelled, on an increasing table with at least two points (`data` are the pairs).
/repo/structcol/refractive_index.py:163-215 -/
def n (material : String) (wavelen : ℝ) (index_data wavelength_data : Option (List ℝ)) (unit : ℝ) : Except PyErr XF :=
  if material = "data" then
    match index_data, wavelength_data with
    | some ys, some xs =>
      interp1d (fun y => .ok (fin y)) (.error .valueError) (.error .valueError) (xs.zip ys) (round2 (wavelen / unit))
    | _, _ => .error .keyError
  else
    match nDict.lookup material with
    | some f => .ok (f (fin wavelen))
    | none => .error .keyError

/-! ## Cargille oils -/

/-- `cs`, `ds`, `es` of a series; `none` is the KeyError. /repo/structcol/refractive_index.py:263-417 -/
def series : String → Option (List ℤ × List ℤ × List ℤ)
  | "AAA" => some (cTabAAA, dTabAAA, eTabAAA)
  | "AA" => some (cTabAA, dTabAA, eTabAA)
  | "A" => some (cTabA, dTabA, eTabA)
  | "B" => some (cTabB, dTabB, eTabB)
  | "E" => some (cTabE, dTabE, eTabE)
  | "acrylic" => some (cTabAcrylic, dTabAcrylic, eTabAcrylic)
  | _ => none

/-- NumPy indexing `l[i]` with an integer, counting from the end when negative; `none` is the IndexError. -/
def pyIndex (l : List ℤ) (i : ℤ) : Option ℤ :=
  if 0 ≤ i then l[i.toNat]? else if 0 ≤ l.length + i then l[(l.length + i).toNat]? else none

/-- `n_cargille`.  The statement computing `n` ends after the second term; the line with the third term is a separate
expression whose value is discarded. /repo/structcol/refractive_index.py:419-430 -/
def nCargille (i : ℤ) (s : String) (w : ℝ) : Except PyErr XF :=
  match series s with
  | none => .error .valueError
  | some (cs, ds, es) =>
    match pyIndex cs i, pyIndex ds i, pyIndex es i with
    | some c, some d, some _e => .ok (fin (c / 10 ^ 7) + fin (d / 10 * 10 ^ (-8 : ℤ)) / (fin w * fin w))
    | _, _, _ => .error .valueError

/-! ## Effective index -/

/-- Maxwell-Garnett for real indices. /repo/structcol/refractive_index.py:482-491 -/
def maxwellGarnett (ni nm phi : ℝ) : XF :=
  fin nm * XF.sqrt (fin (2 * nm ^ 2 + ni ^ 2 + 2 * phi * (ni ^ 2 - nm ^ 2)) /
    fin (2 * nm ^ 2 + ni ^ 2 - phi * (ni ^ 2 - nm ^ 2)))

/-- Maxwell-Garnett for complex indices, `np.sqrt` being the principal square root.
/repo/structcol/refractive_index.py:482-491.  Simplification: a zero denominator (NaN or inf in NumPy) is excluded by the
hypotheses of the theorems; here the quotient is 0. -/
def maxwellGarnettC (ni nm phi : ℂ) : ℂ :=
  nm * ((2 * nm ^ 2 + ni ^ 2 + 2 * phi * (ni ^ 2 - nm ^ 2)) / (2 * nm ^ 2 + ni ^ 2 - phi * (ni ^ 2 - nm ^ 2))) ^ (1 / 2 : ℂ)

/-- The Bruggeman sum of a complex trial index over the components `(vf, n)`. /repo/structcol/refractive_index.py:515-521 -/
def bruggemanSum (comps : List (ℝ × ℂ)) (m : ℂ) : ℂ :=
  (comps.map fun c => (c.1 : ℂ) * (c.2 ^ 2 - m ^ 2) / (c.2 ^ 2 + 2 * m ^ 2)).sum

/-- the function handed to `fsolve`. /repo/structcol/refractive_index.py:515-521 -/
def sumBg (comps : List (ℝ × ℂ)) (ab : ℝ × ℝ) : ℝ × ℝ :=
  let S := bruggemanSum comps (ab.1 + ab.2 * Complex.I)
  (S.re, S.im)

/-- the components: particle layers followed by the matrix, whose volume fraction is the remainder.
/repo/structcol/refractive_index.py:503-512 -/
def components (n_particle : List ℂ) (n_matrix : ℂ) (vf : List ℝ) : List (ℝ × ℂ) :=
  (vf ++ [1 - vf.sum]).zip (n_particle ++ [n_matrix])

/-- `n_eff` with `maxwell_garnett=False`.  `fsolve` is SciPy's root finder: a function from the residual and the initial guess
to whatever it stops at; its convergence flag is not looked at. /repo/structcol/refractive_index.py:493-538 -/
def nEffBruggeman (fsolve : (ℝ × ℝ → ℝ × ℝ) → ℝ × ℝ → ℝ × ℝ) (n_particle : List ℂ) (n_matrix : ℂ) (vf : List ℝ) :
    Except PyErr ℂ :=
  if n_particle.length ≠ vf.length then .error .valueError
  else
    let r := fsolve (sumBg (components n_particle n_matrix vf)) (1.5, 0)
    if r.2 = 0 then .ok r.1
    else if r.2 < 0 then .error .valueError
    else .ok (r.1 + r.2 * Complex.I)

/-- `n_eff` with `maxwell_garnett=True`: `n_particle` and `n_matrix` must have the same number of entries (here one value of
`volume_fraction` for all). /repo/structcol/refractive_index.py:476-491 -/
def nEffMaxwellGarnett (n_particle n_matrix : List ℂ) (phi : ℂ) : Except PyErr (List ℂ) :=
  if n_particle.length ≠ n_matrix.length then .error .valueError
  else .ok (List.zipWith (fun ni nm => maxwellGarnettC ni nm phi) n_particle n_matrix)

end
end Verif.Index
