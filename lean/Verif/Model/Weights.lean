import Verif.Model.Fresnel
import Verif.Model.Exits

/-!
# Model of the weight bookkeeping of /repo/structcol/detector.py

`calc_outcome_weights`, `fresnel_correct_enter`, `fresnel_correct_exit`, `detect_correct`, `detect_corrected_traj`,
`distribute_ambig_traj_weights`, and their composition in `calc_refl_trans` with the recursion through
`run_sphere_fresnel_traj`.

All weights are `XF` arrays over trajectories, so NaN is tracked through sums and quotients.
-/

namespace Verif.Weights
noncomputable section
open Classical XF Root Fresnel

/-- the `boundary` argument -/
inductive Boundary | film | sphere
  deriving DecidableEq

/-- Angle to a film's normal from the z-component of the direction: `np.arccos(np.abs(cosz))`.
/repo/structcol/detector.py:458 -/
def angleFilm (cosz : XF) : XF := XF.arccos (XF.abs cosz)

/-- `get_angles` for a film without `init_dir`: angle at the selected event (`cosz = 0` where there is none).
/repo/structcol/detector.py:445-458.  The second return value of `get_angles` (the normal) is not used for films. -/
def getAnglesFilm {nev nt : ℕ} (kz : Fin nev → Fin nt → ℝ) (indices : Fin nt → ℕ) : Fin nt → XF :=
  fun j => angleFilm (fin (sel kz indices j))

/-- the four arrays of `calc_outcome_weights`, and whether it warns -/
structure Outcome (nt : ℕ) where
  refl : Fin nt → XF
  trans : Fin nt → XF
  stuck : Fin nt → XF
  absorb : Fin nt → XF
  warn : Prop

/-- `calc_outcome_weights`. /repo/structcol/detector.py:825-872 -/
def calcOutcomeWeights {nev nt : ℕ} (inc : Fin nt → XF) (ri ti si : Fin nt → ℕ) (w : Fin nev → Fin nt → XF) :
    Outcome nt :=
  let refl := fun j => inc j * sel w ri j
  let trans := fun j => inc j * sel w ti j
  let stuck := fun j => inc j * sel w si j
  { refl := refl
    trans := trans
    stuck := stuck
    absorb := fun j => inc j - refl j - trans j - stuck j
    warn := (fin 20 : XF) ≤ (∑ j, stuck j) / (∑ j, inc j) * fin 100 }

/-- `fresnel_correct_enter` for a film: the incident angle, and the passed fraction.
`kz0` is the first row of `kz`.  Without coarse roughness the incident direction is reconstructed from the direction
inside by refraction back into the medium.  /repo/structcol/detector.py:922-956 -/
def incAngleFilm {nt : ℕ} (n_medium n_sample : ℝ) (kz0 : Fin nt → ℝ) (kz0_rot : Option (Fin nt → ℝ)) : Fin nt → XF :=
  match kz0_rot with
  | none => fun j => angleFilm (XF.cos (refraction1 (angleFilm (fin (kz0 j))) (fin n_sample) (fin n_medium)))
  | some k => fun j => angleFilm (fin (k j))

/-- The rest of `fresnel_correct_enter`: `inc_pass_frac`. /repo/structcol/detector.py:944-956 -/
def incPassFrac {nt : ℕ} (fresnel_traj : Bool) (thInc : Fin nt → XF) (n_medium : ℝ) (n_front : Option ℝ)
    (n_sample : ℝ) : Except PyErr (Fin nt → XF) :=
  if fresnel_traj then .ok (fun _ => fin 1) else fresnelPassFrac thInc n_medium n_front n_sample

/-- result of `fresnel_correct_exit` (without the normal vectors) -/
structure ExitFresnel (nt : ℕ) where
  reflFrac : XF
  transFrac : XF
  reflPass : Fin nt → XF
  transPass : Fin nt → XF
  reflFresnel : Fin nt → XF
  transFresnel : Fin nt → XF

/-- `fresnel_correct_exit`; `thRefl`, `thTrans` are the angles `get_angles` returns for the reflected and transmitted
events. /repo/structcol/detector.py:959-1101 -/
def fresnelCorrectExit {nt : ℕ} (n_sample n_medium : ℝ) (n_front n_back : Option ℝ) (thRefl thTrans : Fin nt → XF)
    (refl trans absorb : Fin nt → XF) (fresnel_traj : Bool) : Except PyErr (ExitFresnel nt) := do
  let passR ← fresnelPassFrac thRefl n_sample n_front n_medium
  let passT ← fresnelPassFrac thTrans n_sample n_back n_medium
  let reflPass := fun j => refl j * passR j
  let transPass := fun j => trans j * passT j
  let denom : XF := if fresnel_traj then fin nt else ∑ j, (absorb j + reflPass j + transPass j)
  return { reflFrac := (∑ j, reflPass j) / denom
           transFrac := (∑ j, transPass j) / denom
           reflPass := reflPass
           transPass := transPass
           reflFresnel := fun j => refl j - reflPass j
           transFresnel := fun j => trans j - transPass j }

/-- `detect_correct`: weights leaving outside the detection angle are set to zero.
/repo/structcol/detector.py:587-600 -/
def detectCorrect {nt : ℕ} (angles weights : Fin nt → XF) (n_before n_after thresh : ℝ) : Fin nt → XF := fun j =>
  let theta := refraction1 (angles j) (fin n_before) (fin n_after)
  let theta := if XF.isNaN theta then pinf else theta
  if (fin thresh : XF) < theta then fin 0 else weights j

/-- result of `detect_corrected_traj` -/
structure Detected (nt : ℕ) where
  incRefl : Fin nt → XF
  trans : Fin nt → XF
  refl : Fin nt → XF
  transDetFrac : XF
  reflDetFrac : XF

/-- `detect_corrected_traj`.  `thIncDet` is the angle `get_angles(..., init_dir=kz[0,:])` returns;
`kz0_refl` is given with coarse roughness.  /repo/structcol/detector.py:1104-1223 -/
def detectCorrectedTraj {nt : ℕ} (inc : Fin nt → XF) (n_sample n_medium : ℝ) (thIncDet thRefl thTrans : Fin nt → XF)
    (reflPass transPass : Fin nt → XF) (detection_angle : ℝ) (kz0_refl : Option (Fin nt → ℝ)) : Detected nt :=
  let incRefl := fun j => fin 1 - inc j
  let incReflDet := match kz0_refl with
    | some k => fun j => if XF.arccos (fin (k j)) < fin (Real.pi - detection_angle) then fin 0 else incRefl j
    | none => detectCorrect thIncDet incRefl n_medium n_medium detection_angle
  let transDet := detectCorrect thTrans transPass n_sample n_medium detection_angle
  let reflDet := detectCorrect thRefl reflPass n_sample n_medium detection_angle
  { incRefl := incReflDet
    trans := transDet
    refl := reflDet
    transDetFrac := XF.npMax (∑ j, transDet j) (fin EPS) / XF.npMax (∑ j, transPass j) (fin EPS)
    reflDetFrac := XF.npMax (∑ j, reflDet j) (fin EPS) / XF.npMax (∑ j, reflPass j) (fin EPS) }

/-- `reflectance, transmittance, refl_per_traj, trans_per_traj` -/
structure RT (nt : ℕ) where
  R : XF
  T : XF
  reflPer : Fin nt → XF
  transPer : Fin nt → XF

/-- `distribute_ambig_traj_weights`. /repo/structcol/detector.py:1226-1333 -/
def distribute {nt : ℕ} (X : ExitFresnel nt) (D : Detected nt) (stuck : Fin nt → XF) (b : Boundary) (detector : Bool) :
    RT nt :=
  let extra_refl0 : Fin nt → XF := match b with
    | .film => fun j => X.reflFresnel j * X.reflFrac + X.transFresnel j * X.transFrac + stuck j * fin (1/2)
    | .sphere => fun j => fin (1/2) * (X.reflFresnel j + X.transFresnel j + stuck j)
  let extra_trans : Fin nt → XF := match b with
    | .film => fun j => X.transFresnel j * X.reflFrac + X.reflFresnel j * X.transFrac + stuck j * fin (1/2)
    | .sphere => fun j => fin (1/2) * (X.transFresnel j + X.reflFresnel j + stuck j)
  let incRefl : Fin nt → XF := if detector then fun _ => fin 0 else D.incRefl
  let extra_refl : Fin nt → XF := if detector then fun j => X.reflFresnel j * X.reflFrac else extra_refl0
  let trans_weights := fun j => D.trans j + extra_trans j * D.transDetFrac
  let refl_weights := fun j => D.refl j + extra_refl j * D.reflDetFrac + incRefl j
  { reflPer := fun j => refl_weights j / fin nt
    transPer := fun j => trans_weights j / fin nt
    T := ∑ j, trans_weights j / fin nt
    R := ∑ j, refl_weights j / fin nt }

/-- `n_tir`. /repo/structcol/detector.py:1803-1814 -/
def nTir (n_sample fine_roughness : ℝ) (n_particle n_matrix : Option ℝ) : ℝ :=
  match n_particle, n_matrix with
  | some p, some m =>
    if p < m then fine_roughness * m + (1 - fine_roughness) * n_sample
    else fine_roughness * p + (1 - fine_roughness) * n_sample
  | _, _ => n_sample

/-- optical constants of one call of `calc_refl_trans` -/
structure Optics where
  n_medium : ℝ
  n_sample : ℝ
  n_tir : ℝ
  n_front : Option ℝ
  n_back : Option ℝ
  detection_angle : ℝ

/-- What one call of `calc_refl_trans` derives from its trajectories before the weight bookkeeping: exit events and the
angles to the surface normal (`get_angles`). -/
structure Geometry (nt : ℕ) where
  ri : Fin nt → ℕ
  ti : Fin nt → ℕ
  si : Fin nt → ℕ
  thInc : Fin nt → XF
  thIncDet : Fin nt → XF
  thRefl : Fin nt → XF
  thTrans : Fin nt → XF

/-- everything computed by the body of `calc_refl_trans` before the recursion test -/
structure Level (nt : ℕ) where
  inc : Fin nt → XF
  out : Outcome nt
  exit : ExitFresnel nt
  det : Detected nt
  totalStuck : XF

/-- The body of `calc_refl_trans` from `fresnel_correct_enter` to `total_stuck`.
/repo/structcol/detector.py:1839-1881.  `fresnel_correct_enter` and `fresnel_correct_exit` are called with `n_tir`,
`detect_corrected_traj` with `n_sample`. -/
def level {nev nt : ℕ} (o : Optics) (g : Geometry nt) (kz0_refl : Option (Fin nt → ℝ)) (fresnel_traj : Bool)
    (w : Fin nev → Fin nt → XF) : Except PyErr (Level nt) := do
  let inc ← incPassFrac fresnel_traj g.thInc o.n_medium o.n_front o.n_tir
  let out := calcOutcomeWeights inc g.ri g.ti g.si w
  let exit ← fresnelCorrectExit o.n_tir o.n_medium o.n_front o.n_back g.thRefl g.thTrans out.refl out.trans out.absorb
    fresnel_traj
  let det := detectCorrectedTraj inc o.n_sample o.n_medium g.thIncDet g.thRefl g.thTrans exit.reflPass exit.transPass
    o.detection_angle kz0_refl
  return { inc := inc, out := out, exit := exit, det := det
           totalStuck := (∑ j, (exit.reflFresnel j + exit.transFresnel j + out.stuck j)) / fin nt }

/-- `calc_refl_trans` without re-running internally reflected light (`run_fresnel_traj=False`).
`detected` is the goniometer filter: with `detector=True`, `refl_indices` is replaced by 0 for undetected trajectories
(`calc_indices_detected`, modelled in Verif/Model/Geometry.lean), before the weights are computed.
/repo/structcol/detector.py:1791-1930 -/
def calcReflTrans {nev nt : ℕ} (o : Optics) (b : Boundary) (g : Geometry nt) (kz0_refl : Option (Fin nt → ℝ))
    (detector : Bool) (w : Fin nev → Fin nt → XF) : Except PyErr (RT nt) := do
  let l ← level o g kz0_refl false w
  return distribute l.exit l.det l.out.stuck b detector

/-- The `Geometry` of a film call, from positions and directions.  With a goniometer, `reflFilter` is the function that
replaces the reflected event numbers by those of the detected trajectories. /repo/structcol/detector.py:1815-1843 -/
def filmGeometry {nev nt : ℕ} (o : Optics) (thickness z_low : ℝ) (z : Fin (nev + 2) → Fin nt → ℝ)
    (kz : Fin (nev + 1) → Fin nt → ℝ) (kz0_rot : Option (Fin nt → ℝ))
    (reflFilter : (Fin nt → ℕ) → (Fin nt → ℕ)) : Geometry nt :=
  let X := Exits.findValidExitsFilm o.n_tir o.n_medium thickness z_low z kz
  let idx := Exits.findEventIndices X.neg X.pos X.tir
  let ri := reflFilter idx.1
  { ri := ri
    ti := idx.2.1
    si := idx.2.2.1
    thInc := incAngleFilm o.n_medium o.n_tir (kz 0) kz0_rot
    thIncDet := fun j => angleFilm (fin (kz 0 j))
    thRefl := getAnglesFilm kz ri
    thTrans := getAnglesFilm kz idx.2.1 }

/-- The roughness argument check at the start of `calc_refl_trans`. /repo/structcol/detector.py:1783-1787 -/
def roughnessArgs {α : Type} (kz0_rot kz0_refl : Option α) : Except PyErr Unit :=
  if (kz0_rot.isNone ∧ kz0_refl.isSome) ∨ (kz0_rot.isSome ∧ kz0_refl.isNone) then .error .valueError else .ok ()

/-- `calc_refl_trans` for a film (`run_fresnel_traj=False`), complete. -/
def calcReflTransFilm {nev nt : ℕ} (o : Optics) (thickness z_low : ℝ) (z : Fin (nev + 2) → Fin nt → ℝ)
    (kz : Fin (nev + 1) → Fin nt → ℝ) (w : Fin (nev + 1) → Fin nt → ℝ) (kz0_rot kz0_refl : Option (Fin nt → ℝ))
    (detector : Bool) (reflFilter : (Fin nt → ℕ) → (Fin nt → ℕ)) : Except PyErr (RT nt) := do
  roughnessArgs kz0_rot kz0_refl
  calcReflTrans o .film (filmGeometry o thickness z_low z kz kz0_rot (if detector then reflFilter else id)) kz0_refl
    detector (fun e j => fin (w e j))

/-! ### Recursion -/

/-- One simulated generation of photons at recursion depth `d`: everything that depends on the random draws.
`att e j` is `exp(-mu_abs * path)` up to event `e`, by which `Trajectory.absorb` multiplies the initial weight. -/
structure Sim (nt : ℕ) where
  nev : ℕ
  att : Fin nev → Fin nt → ℝ
  geo : Geometry nt

/-- the default of the parameter `max_call_depth`. /repo/structcol/detector.py:1633 -/
def defaultMaxCallDepth : ℕ := 20

/-- result of the recursion with, for the record, the number of nested calls made below this one -/
structure RecResult (nt : ℕ) where
  rt : RT nt
  nested : ℕ

/-- `calc_refl_trans(..., run_fresnel_traj=True)` at depth `d`, together with `run_sphere_fresnel_traj`.
/repo/structcol/detector.py:1881-1930 and 1962-2187.

* `o` are the optical constants of this call; nested calls are made with `on`, which keeps `n_medium` and `n_sample` but
  has the default `n_front`, `n_back`, `detection_angle` and `n_tir = n_sample` (those arguments are not passed on).
* `maxDepth` is this call's `max_call_depth`; it is not passed on either, so nested calls have the default, 20.
* `sim d` is the generation simulated at depth `d`, an arbitrary function of the random draws.
* `W` is the initial weight of each photon of this generation (1 at depth 0).
Simplification: `fresnel_traj` is `d > 0`; the exits at the nested levels are computed by the caller of this model
(`sim`), which may depend on everything that happened before. -/
def calcRec {nt : ℕ} (b : Boundary) (on : Optics) (sim : ℕ → Sim nt) (kz0_refl : Option (Fin nt → ℝ)) (detector : Bool)
    (max_stuck : ℝ) (o : Optics) (maxDepth : ℕ) (d : ℕ) (W : Fin nt → XF) : Except PyErr (RecResult nt) := do
  let l ← level o (sim d).geo kz0_refl (decide (0 < d)) (fun e j => W j * fin ((sim d).att e j))
  if _h : d < maxDepth ∧ (fin max_stuck : XF) < l.totalStuck then
    let refl_nf := fun j => (l.det.refl j + l.det.incRefl j) / fin nt
    let trans_nf := fun j => l.det.trans j / fin nt
    let W' := fun j => l.exit.reflFresnel j + l.exit.transFresnel j + l.out.stuck j
    let r ← calcRec b on sim none false max_stuck on defaultMaxCallDepth (d + 1) W'
    return { rt := { R := r.rt.R + ∑ j, refl_nf j
                     T := r.rt.T + ∑ j, trans_nf j
                     reflPer := fun j => r.rt.reflPer j + refl_nf j
                     transPer := fun j => r.rt.transPer j + trans_nf j }
             nested := r.nested + 1 }
  else
    return { rt := distribute l.exit l.det l.out.stuck b detector, nested := 0 }
termination_by 2 * (defaultMaxCallDepth - d) + min 1 (maxDepth - d)
decreasing_by
  have h1 := _h.1
  simp only [defaultMaxCallDepth] at *
  omega

end
end Verif.Weights
