# Formal model of structcol (manoharan-lab/structural-color) in Lean 4

## 1. Layout

* `properties.jsonl` – the English properties (C01 …), generated by `tools/gen_properties.py`.
* `lean/Verif/Model/*.lean` – the model. One definition per Python function (or per block of a long
  function); every definition has a comment with the file and lines it models and the simplifications made.
* `lean/Verif/Spec.lean` – small specification vocabulary (vectors, norms, "first true event", fractions …)
  that the theorems are stated with. It does not import the model.
* `lean/Verif/Lemmas/*.lean` – helper lemmas.
* `lean/Verif/Props/*.lean` – the property theorems, `Cnn_…`, with a non-vacuity `example` beside each.
* `MANIFEST.json` – property → theorem names and status.
* `seeded/LOG.jsonl` – log of the mutation ("wrong program") experiments.

## 2. How numbers and arrays are modelled

* **Floats are modelled by real numbers** (Mathlib's `ℝ`); rounding and overflow are not modelled. Every theorem
  is therefore about exact arithmetic.
* **NaN and infinities are modelled where the code relies on them** by the type `XF`
  (`fin r | pinf | ninf | nan`, one unsigned zero), with IEEE rules for `+ - * /`, comparisons (false on NaN),
  `nan_to_num`, and functions returning NaN outside their domain.
* **Arrays.** A 1-d array over trajectories is a function `Fin ntraj → α`; a 2-d array (events × trajectories) is a function
  of an event number and a trajectory or, where out-of-range indexing matters, a list with checked access.
  NumPy element-wise expressions become pointwise expressions.
  No size is ever bounded.
* **Exceptions are values** (`Except PyErr α`).
* **In-place updates** return the new array; where aliasing with the caller is the property (C30, C65) the
  model is over a small heap of array references.
* **Random numbers** are explicit arguments: the theorem quantifies over every stream of draws in `[0,1)`.
* **pint units** are not modelled: all lengths in one unit (the code's `.to('um')`).
* **External code** (`pymie`, `scipy.interpolate`, `scipy.optimize.fsolve`, `np.random`) enters as function parameters;
  what is assumed of each is an explicit hypothesis of the theorem concerned.

## 3. Trusted base

* Lean 4.33.0's kernel; Mathlib's definitions of `ℝ`, `Real.sin`, `Real.arcsin`, … .
* Axioms: `propext`, `Classical.choice`, `Quot.sound` only. No axiom is added, no `native_decide`/`bv_decide`.
* The reading of the Python source recorded in the comments of `Verif/Model`. The code has not been run.
* NumPy semantics as summarised in §2.

## 4. Per-property plan

(see §6 for findings; statuses are in MANIFEST.json)

| id | modelled | proof idea |
|----|----------|-----------|
| C01,C02 | `refraction` on `XF` angle arrays | `sin (arcsin x) = x` on [-1,1]; monotone/odd composition |
| C03 | `normalize` with both flags, on batches | real square-root algebra, column independence by pointwise definition of the masked store |
| C04 | `select_events` 2D, 3D with checked indexing | case split on the event number |
| C05–C07 | `fresnel_reflection/transmission` incl. ValueError, TIR mask | squares of quotients `(a-b)/(a+b)` with a,b ≥ 0; reciprocity by trig identities |
| C08 | `fresnel_pass_frac` scalar core with the `π/2` substitution and EPS | algebra: (1-R1)(1-R2)/(1-R1R2+ε) ≤ 1; geometric series |
| C09,C10 | `find_event_indices` with `argmax(vstack([0], table))` | induction on the column for "first true" |
| C11–C13 | `find_valid_exits` film branch (floor, diff, parity, NaN critical cosine) | floor arithmetic; induction over the path for unfolding; C13 refuted |
| C14–C18 | `calc_outcome_weights`, `fresnel_correct_enter/exit`, `detect_correct`, `detect_corrected_traj`, `distribute_ambig_traj_weights` composed as `calc_refl_trans` (film) | finite-sum algebra |
| C19,C20 | recursion `calc_refl_trans ↔ run_sphere_fresnel_traj` | fuel-free structural recursion / induction on depth, energy invariant |
| C21–C29 | detector geometry | polynomial identities (`nlinarith`, `field_simp`), trig identities |
| C30,C65 | heap of arrays with references | frame lemmas: only freshly allocated references are written |
| C31–C37 | `Trajectory.absorb/scatter/move`, `sample_step`, `sample_angles`, `initialize` | induction over events |
| C38 | argument checks of `initialize` | decision logic |
| C39 | `calc_scat` density block on `XF` | case split on zero concentrations |
| C40 | `phase_function` normalisation | finite sums |
| C41 | `coarse_roughness_enter` | trig identities; plane-of-incidence part refuted |
| C42 | `calc_fields` | normalisation; phase part refuted |
| C43–C48 | `event_distribution.py` loops | folds over event numbers, sums by fibre |
| C49–C53 | `n_eff`, `n_cargille`, `n` | real algebra; decision logic |
| C54,C55 | `structure.py` | real inequalities; piecewise-linear interpolation |
| C56–C60 | `model.py` blocks | exp inequalities, telescoping sums, trapezoid rule |
| C61–C63 | `detector_polarization_phase.py` | Cauchy–Schwarz, rotation invariance |
| C64,C66,C67 | `phase_func_sphere.py` | sums, list lengths |
| C68,C69 | `shift_traj_tir`/`select_tir_traj`, `inf_to_large` | induction over rows; case split on `XF`; both refuted in part |
| C70 | `get_angles(init_dir)` + `fresnel_correct_enter` (sphere) | arccos/dot algebra; refuted for oblique entry |
| C71 | `sample_angles` (1D and 2D) as discrete laws | finite sums; the 2D marginal is refuted |
| C72 | `n('data', …)` with the rounding of the query | interpolation lemma (`Lemmas/Interp`) |
| C73 | `factor_py`, `cc`, `radial_dist_py` | antiderivatives of the polynomial times sine, limits at 0 and ∞ |
| C74 | `factor_poly` | algebra of the two-species sums |
| C75–C79 | blocks of `model.py` (`reflection`, `differential_cross_section`, `polydisperse_form_factor`, `_number_density`) | trapezoid sums (`Lemmas/Trapz`), trigonometric monotonicity |
| C80–C83 | `phase_func_sphere.py` | finite sums, list filters, nearest neighbour |
| C84 | `find_valid_exits` (sphere, complete) ∘ `find_event_indices` | first-event lemmas + C24's criterion |
| C85 | `run_sphere_fresnel_traj` up to the new trajectories | C21 + C22; refuted for stuck light, weights, films |
| C86–C89 | `calc_scat`, `phase_function` completely, Mie functions as parameters | case split on the flags; trapezoid sums; C86–C88 refuted in part |
| C90 | `P_theta_a`, slope sampling of `coarse_roughness_enter` | antiderivatives, limits at 90 degrees, finite sums |
| C91–C94 | `radial_dist_py`, the discrete transforms, `field_phase_py`, `phase_factor`, `field_phase_data` | finite sums; bound on the transform for dilute samples; polynomial with finitely many roots for all others; C92, C94 refuted |
| C95 | composition `initialize` → `sample_*` → `Trajectory` → `calc_refl_trans` (`Model/Simulation`) | invariants C30–C41 of each stage feed C15, C16, C18 |
| C96 | two runs of `Model/Simulation` with the same draws and two absorption coefficients | per-photon weights are antitone in absorption (`C38`); every term of the reflected/transmitted sums and the renormalisation factor is monotone in the weights |
| C97 | run of `Model/Simulation` with all lengths scaled | scaling commutes with every stage; exits only see z/thickness; the goniometer's projected windows scale with the detector size and distance |
| C98 | `calc_refl_trans` for a film, and for a sphere with re-started photons, on permuted trajectories | every per-trajectory array is equivariant, every total a finite sum |
| C99 | `calc_refl_trans` (film with or without goniometer, sphere without re-running) on two bundles that agree up to the exits; two runs with different event counts | first-exit characterisation (`C10`) depends only on the prefix; selections and renormalisation depend only on selected events; prefix lemma for `scatter`/`move` |
| C100 | `Model/SphereRun`: `simulate` with a spherical boundary, then `calc_refl_trans` with every generation of `run_sphere_fresnel_traj` actually re-started and re-simulated | invariant per generation: photons start inside the sphere, weights are start weight × attenuation; every exit segment starts inside and ends outside, so the exit point and its angle exist (C21); induction on the recursion with the balance of C16 |
| C101 | `calc_refl_trans` for a film against `SpecFilm.lean`, a specification with real numbers and textbook optics only | refinement: fates from C09–C12, plates from C08, real shadow of the bookkeeping |
| C102 | detection of the light reflected at first incidence | refuted: the code compares the refracted angle inside the sample with the detection angle; holds at normal incidence, equal indices, full hemisphere |
| C103 | `sample_step` on random variables (`SpecStat.lean`: independent uniform numbers on a probability space) | quantile transform: CDF of `-log(1-U)/mu` is that of Mathlib's `expMeasure`; independence by composition |
| C104 | `initialize` on random variables | affine images of the uniform law; for the disc, change of variables with constant Jacobian `pi R^2` |
| C105 | `sample_angles` with NumPy's `choice` as inversion of the cumulative sums (`Model/Choice.lean`) | the set of uniform numbers giving index k is an interval of length p_k; independence by composition |
| C106 | the same | 1D: integrals of sin and cos over a period; 2D refuted: the azimuth grid contains both 0 and 2 pi, so the mean of cos(phi) is 1/num_phi |
| C107 | `scatter` on the angles of `sample_angles`, as a random walk on directions | moments by induction over the events, using that the angles of an event are independent of all earlier ones; mean direction proved, the mean cosine of successive directions refuted (closed form `g(1/3 + 2/3((3c-1)/2)^n)`) |
| C108 | `move` on the steps of `sample_step` and those directions | a step is independent of all angles; expectation of the sum of step times direction |
| C109 | `calc_refl_trans` for a sphere (no re-runs) against `SpecSphere.lean` | refinement: fates from C84, angles from C21/C27/C70, plates from C08, real shadow of the bookkeeping; corollary for an index-matched surface without reference to `exit_kz` |
| C110 | `Traj.absorb`, `Traj.move` | path length of `move` from C33; refuted: absorption is applied to the whole last step |
| C111 | `simulate`, `findValidExitsFilm`, `findEventIndices` with random steps | first event transmitted iff the first step reaches the far face (C10, C11, Snell); integral of the uniform law; weight refuted when the sample absorbs |
| C112 | the same, any number of trajectories from one stream | strong law of large numbers and variance of a sum of independent indicators |
| C113 | `Bulk.calcScatBulk` with the array it overwrites | case analysis; refuted with exit directions |
| C114 | `runSphere`, `Bulk.calcScatBulk`, `runFilm` composed | per-trajectory invariant of C100 (induction over re-runs), C64, C83, C95 |
| C115 | `Bulk.calcPdf` with `phi_dependent=True` | refuted: an error for every input |
| C116 | `Fft.convCirc`: explicit discrete Fourier sums | orthogonality of roots of unity gives the circular convolution; totals, symmetry, shapes follow |
| C117 | `Absorption.absorptionCrossSection`, Mie values as parameters | case analysis; weighted averages over the 50 diameters; refuted: size parameter of the mean diameter for all sizes, unknown geometry gives 0 |
| C118 | `scatter` on uniform draws; specification `trueDirection` (turn the frame carried by the photon) | C32 (reversed history) and exchangeability of independent identically distributed angles |
| C119 | `Deprecated.calcTirPhase`, `calcTirPhaseEventInput` over the names objects have | refuted: AttributeError for every input; the formula behind it characterised |
| C120 | `Fresnel.fresnelReflectionC`: complex indices, numpy's lexicographic `<`, the real square root of a modulus | refuted: entering an absorbing sample at normal incidence the two coefficients differ and bracket the textbook value; above 1 if Im n > Re n; proved: leaving is exact at normal incidence, fractions otherwise, real indices agree with C05 |
| C121 | `Reflection.reflection`: the whole function, `n_eff`, `differential_cross_section` and pymie as parameters; `mcScat`: `calc_scat` over the same parameters | partial: proved for every sample except one made of the second species only (number density refuted there) |
| C122 | the absorbing branch of `Reflection.reflection`; pymie's integral assumed to be a quadrature with non-negative weights | closed form of all five outputs, then Beer–Lambert with the Monte Carlo coefficients |
| C123 | the curves handed to `plt.plot` (`Plots.reflEventNorm`, …), numpy's negative indices included; styles and labels not modelled | algebra of partial sums; induction on the number of events for the survival product; counterexamples for the summed normalised plot and for negative events |
| C124 | `save_data` as an update of a map from file names; `str` of numbers uninterpreted but injective and free of underscores | splitting the name at underscores, induction over the session; three overwriting pairs as counterexamples |
| C125 | the whole walk (`scatter` + `move` with the sampled angles and steps) as random variables of independent uniform draws | second moments of exponential steps, correlations of the directions at every lag (linear recursion), geometric sums, Cesàro limit; the same steps and angles taken in the photon's own frame as the reference |
| C126 | the directions of `scatter` for light entering at a polar angle and azimuth, with the sampled angles as random variables | both inclinations are one function of alternate rotations about z and y; the draws used in one are those of the other, permuted and reflected (C106's argument); right-angle scattering as counterexample for a fixed azimuth |
| C127 | the whole film run (`simulate`, `find_valid_exits`, `find_event_indices`, `calc_outcome_weights`) with all sampled numbers as random variables | a walk on the sphere of directions: from every direction a chain of events with one sampled angle reaches the normal (explicit chain), hence by continuity an exit has positive probability near every direction, by compactness uniformly, by independence of blocks of events exponentially (`Lemmas/Walk`) |
| C128 | two whole film runs with different numbers of events and the same random numbers | the shorter run's directions, positions and weights are a prefix of the longer run's (induction on events); the first flagged event of a prefix stays the first; everything in `calc_refl_trans` selects by event number; the limit is C127 |
| C129 | the whole transparent `reflection` as `num_angles → ∞`, against integrals and textbook Fresnel coefficients written separately | composite trapezoid sums of bounded almost-everywhere continuous functions converge (`Lemmas/Riemann.lean`, dominated convergence on step functions); the Fresnel coefficients are continuous off the critical angle |
| C130 | `sample_angles` and `scatter` on a grid of n+1 angles as n → ∞ | C105's law on the grid is a ratio of Riemann sums; the indicator of `θ ≤ t` is continuous off one point |
| C131 | `reflection`, `calc_scat`, `sample_angles`, `sample_step`, `scatter` and `move` together on a grid of n+1 angles as n → ∞ | C129's limits for `reflection`, C121's agreement at each grid for mu_scat and the phase function, C130's limit of the mean cosine and C108's mean position; the geometric series in g |
| C132 | `calc_diam_list`, `size_distribution` and `sample_diams` on a magnitude with a unit (`Model/Units`) | refuted for the default list, whose search starts at the number 1 in the unit of the mean; `equal_spacing=True` and the sampling itself scale exactly |
| C133 | `reflection` (`Model/Reflection`), `calc_scat` and `phase_function` (`Model/CalcScat`) with every length scaled; the differential cross sections, Mie's absorption cross section and pymie's integrals are assumed to scale as their dimensions say | scaling lemmas for the extended floats, including infinities and nan; every stage scales.  Refuted for `polydisperse_form_factor` above an index of 1/3, whose smallest diameter is the number 1e-6 |
| C134 | `calc_refl_trans` for a sphere (`Model/Sphere*`) with positions and diameter scaled | estimator theorem C109 in both units, all its ingredients scale, for an index-matched surface.  Refuted with refraction: every oblique refracted exit through the far half is counted as reflected in a small enough unit (the rotation of `rotate_refract` has an axis that is not normalised), and the reflectance of a straight photon through a sphere of index 4/3 differs |
| C135 | `calc_fields` (`Model/Traj`) and `calc_refl_phase_fields` (`Model/Polarization`) with steps scaled and wavenumber scaled inversely | moduli and incoherent reflectance are unit-free; coherent reflectance refuted: the phase is k²L, so two photons interfere constructively in one unit and destructively in another |
| C136 | `n_cargille` at the sodium D line for every tabulated liquid | exhaustive exact integer evaluation over the whole table (kernel), transferred to the reals; the tables with all three coefficients match the grades, the returned value does not |
| C137 | the whole run `runFilm` of a smooth film with `nt + 1` trajectories for every `nt`, fed from one stream; limit formula in `SpecLimit.lean` | a photon is a measurable function of its own draws (induction over events, countable unions over the faces crossed); groups of draws are i.i.d. (infinite product measures); strong law for nine averages, then limits of the ratios and of the regularised shares |
| C138 | `runFilm` with and without goniometer (`Model/Simulation.lean`, `Model/Weights.lean`) | the detector only filters the reflected indices; every quantity of the estimator is monotone in the filtered set (`Fewer` on the real shadow of the weights); refuted for the transmittance on two photons: the light returned by the faces is no longer shared with the transmittance |
| C139 | `calc_indices_detected` (`Model/Geometry.lean`) against a geometric square (`SpecDetector.lean`) | the code projects the exit point on a hemisphere and compares x and y with a box: in the plane of incidence this is an interval of angles and trigonometry finishes; refuted at grazing angles and at the corners of a detector on the normal |
| C140 | the numbers handed to matplotlib (`Model/PlotsSphere.lean`) | algebra for the normalisations; `arccos` is decreasing, so the first spacing of theta is negative and the whole heat map is; trigonometry for the exit points |
| C141 | the whole run `runFilm` for every number of events and trajectories, fed from one stream | prefix argument for fates; geometric bound of C127 with the illumination integrated out (independence of the beam draws); dominated convergence; strong law for the photon followed until it leaves (measurable by countable partition) |
| C142 | `calc_refl_trans` for a sphere with goniometer (Model/SphereGonio) on top of the sphere model | proved: which photons are counted (refraction at the plane z = 0), zero reading without counted photons when nothing is re-run, a detector of no extent counts nothing; refuted: direction, transmittance, failure, zero reading when light is re-run |
| C143 | the run of C137 (no new model); Hoeffding's inequality for nine averages over independent groups of draws, union bound, perturbation of the formula of the estimator | C143_error_bound, C143_enough_trajectories |
| C144 | the complete runs of C100 and C95 for the trajectories σ 0, σ 1, … of a bundle (no new model); columnwise induction over all generations for spheres; example for films, with a bound | C144_sphere_photons, C144_sphere_batches, C144_film_batches_refuted, C144_film_batches_partial |
| C145 | the complete run of C100 fed from a stream of uniform numbers (no new model of the code); measurability of every function of the run; C144, Hoeffding's inequality, the strong law | C145_sphere_statistics |
| C146 | the complete run of C100 as a function of nevents (no new model of the code); runs with more events share their first events; induction on the generations of re-runs; the steps as independent exponential variables | C146_lossless_settles_partial, C146_light_leaves, C146_absorbing_refuted |
| C147 | the complete run of C100 with two absorption coefficients (no new model of the code); the weights of one call for all weights of the photons, induction on the generations of re-runs; a concrete run across the threshold `max_stuck` | C147_sphere_absorption_partial, C147_threshold_refuted |
| C148 | the complete run of C95 with two thicknesses (no new model of the code); the fates of one photon in two films from its heights alone, sums over the photons with the bounds of C144; change of units (C97) for the density; a concrete pair of runs | C148_thicker_film, C148_denser_film |
| C149 | the complete run of C95 with the scattering coefficient below a threshold that depends on the random numbers (no new model of the code); every photon crosses in its first step, the sums of C101 evaluated; the plate by its textbook transmittance, all inner reflections included | C149_clear_film_partial, C149_clear_film_refuted, C149_absorbing_clear_film_refuted |
| C150 | two complete runs (no new model of the code); induction over the events: depths, inclinations and weights agree, the other coordinates are mirrored | C150_place, C150_mirror |
| C151 | a run followed by calc_haze on what it returned (Model/Haze.lean); the haze by definition, with the angle behind the film from Snell's law | C151_haze_partial, C151_haze_refuted |
| C152 | the limit of C129 (integrals of single-scattering theory), bounded by comparing the detected with the total cross section | C152_reflectance_fraction_partial, C152_polarised_refuted, C152_oblique_refuted |
| C153 | the complete run of C100 with the first steps longer than the diameter (no new model of the code); start points and directions of C37, the estimator C109 evaluated, no re-runs because what is sent back is below max_stuck | C153_invisible_partial, C153_absorbing_refuted |
| C154 | the whole of `reflection` reduced to its assembling part, then C129 and C152, with all inputs written out | C154_transparent_film |
| C155 | the data handed to `plot` and `scatter` (`Traj.plotCoord`) | C155_plot_coord_partial, C155_number_refuted |
| C156 | the order in which the numbers of the generators are drawn (`Rng.simulateRng`); the positions are all different, so the numbers of different photons and uses are independent streams, and C143 applies | C156_own_generator, C156_film_reproducible, C156_any_order, C156_film_numbers, C156_groups_disjoint, C156_seeded_error, C156_seeded_enough |
| C157 | the numbers that run i takes are a block of the stream, the blocks are disjoint, and the results of a run are a measurable function of its block; then variance of a sum, strong law, central limit theorem | C157_independent_runs, C157_standard_error, C157_average_settles, C157_error_bars |
| C158 | sphere runs with generators as a state, locality by induction on the call depth; the run equals the run of C145 on the numbers at certain places, the places are injective, and numbers that are drawn for nothing do not matter | C158_own_generator, C158_reads_no_further, C158_sphere_numbers, C158_places, C158_seeded_error |
| C159 | the number of generations of a run does not depend on the numbers (induction on the call depth), so the runs are functions of disjoint blocks of the stream; then as C157 | C159_numbers_taken, C159_independent_runs, C159_standard_error, C159_average_settles, C159_error_bars |
| C160 | fold over the events with checked row numbers; the directions before row m depend on the angles before row m only | C160_angle_table_partial, C160_last_turn, C160_last_event_refuted, C160_sampled_angles_refuted, C160_angle_not_used_refuted |
| C161 | measure on the draws (independent, uniform); each simulated field turns with the common phase of its two components, so amplitudes average to 0 and cross terms vanish by Fubini | C161_incoherent, C161_incoherent_polarised, C161_average_settles, C161_mean_reflectance, C161_co_cross, C161_polarisers, C161_coherent, C161_coherent_unpolarised_refuted |

## 5. What is modelled and what is not

Modelled (line ranges are in the comments of the definitions):

| module | source |
|---|---|
| `Model/Root` | `structcol/__init__.py` (`refraction`, `normalize`, `select_events`) |
| `Model/Fresnel` | `detector.py`/`model.py` `fresnel_reflection`, `fresnel_transmission`, `fresnel_pass_frac` |
| `Model/Exits`, `Model/Restart` | `find_valid_exits` (film, sphere), `find_event_indices`, `run_sphere_fresnel_traj` |
| `Model/Weights` | `calc_outcome_weights` … `distribute_ambig_traj_weights`, `calc_refl_trans` and its recursion |
| `Model/Geometry` | geometric helpers of `detector.py`, goniometer, haze |
| `Model/Heap` | aliasing of the caller's arrays |
| `Model/Traj`, `Model/Init`, `Model/Rough`, `Model/CalcScat` | `montecarlo.py`: `Trajectory`, sampling, `initialize`, roughness, `calc_scat`, `phase_function` |
| `Model/Events` | `event_distribution.py` |
| `Model/Index`, `Model/CargilleData` | `refractive_index.py` with its tables |
| `Model/Structure`, `Model/Radial` | `structure.py` (`InterpolatedUnivariateSpline` and `jv` as parameters) |
| `Model/SingleScat` | `model.py` |
| `Model/Polarization` | `detector_polarization_phase.py` |
| `Model/Spheres`, `Model/Bulk` | `phase_func_sphere.py` |
| `Model/Units` | `phase_func_sphere.py`: `calc_diam_list`, `size_distribution`, `sample_diams` on magnitudes with units |
| `Model/Simulation` | the sequence of calls of a film simulation, goniometer included |
| `Model/Choice` | `sample_angles` on uniform numbers, with NumPy's `choice` as inversion of the cumulative sums |
| `Model/SphereRun` | the sequence of calls of a sphere simulation with all generations of `run_sphere_fresnel_traj` |
| `Model/Fft` | `conv_circ` |
| `Model/Absorption` | `absorption_cross_section` with Mie cross sections as parameters |
| `Model/ComplexFresnel`, `Model/Reflection` | `model.py`: `fresnel_reflection` with complex indices, `reflection` complete |
| `Model/Plots` | `event_distribution.py`: the curves of `plot_refl_event*` and `plot_refl_dist`, `save_data` |
| `Model/Deprecated` | the coherent branches of `event_distribution.py` |
| `Model/PlotsSphere` | `phase_func_sphere.py`: `plot_phase_func`, `plot_dist_1d`, `plot_exit_points`, the `plot=True` branch of `calc_pdf` |
| `Model/PlotCoord` | `Trajectory.plot_coord`: the curves and clouds it draws |
| `Model/Rng` | `initialize`, `sample_angles`, `sample_step` drawing from a generator with a state, the module's generator `sc.rng` (not: the phases of initial fields, two-dimensional phase functions) |
| `Model/SphereRng.lean` | sphere runs with a generator as a state, including `run_sphere_fresnel_traj` | `detector.py:1783-2187` |
| `Model/ThetaEvents` | `event_distribution.py:169-211` with the sizes of the arrays |

Not modelled:

* Floating-point rounding, overflow, and NumPy warnings; drawing (only the data of the plots, C123 and C140, and the names of saved
  files, C124, are modelled); pint unit conversion.
* Mie theory (`pymie`), `fsolve`, `interp1d`/`curve_fit`/`gaussian_kde` internals: they are parameters with hypotheses.
* Statistics: theorems are about each realisation, or (C71, C103–C108, C111, C112, C125–C128, C130, C131, C137, C141) about the law of
  what is sampled when the generator delivers independent uniform numbers (`SpecStat.lean`).  Convergence of the full Monte Carlo estimate
  is proved for smooth films without goniometer (C137, and C141 for the number of events); for rough films and spheres it is not, nor are rates of convergence of the ratio
  estimator.
* The scripts, notebooks and tests.

## 6. Findings (places where the code disagrees with the property)

Each is a `_refuted` theorem (universally quantified over the affected inputs where possible, otherwise a witness):

* **C13** n_medium > n_sample: `arcsin` is NaN, every comparison False, so no exit is ever found in a film.
* **C18** 0/0 when nothing was decided; NaN incident fraction for an inside direction no outside ray reaches.
* **C19** `max_call_depth`, `n_front`, `n_back`, `detection_angle` are not passed to the nested calls.
* **C24** `exit_kz` rotates about the unnormalised axis `k1 × norm`, in the wrong sense.
* **C25/C26** exactly normal exit gives a NaN direction (0/0 axis); it is then never detected by the goniometer.
* **C32** `scatter` rotates about fixed axes: equivalent to a correct scheme with the angles in reverse order.
* **C37** start direction in a sphere is not the refraction of the incident ray; NaN at the pole.
* **C41** coarse roughness: the azimuth `arccos(kx/|k|)` leaves the plane of incidence.
* **C42** phase `k²L`; the y field uses the already updated x field.
* **C44** the per-trajectory tables are all overwritten from `refl_indices`.
* **C45/C46** NaN distribution / ValueError when no trajectory exits.
* **C47** the last event is dropped from the tallies.
* **C52** the third Cauchy term is a discarded statement; negative cardinal numbers accepted.
* **C54** `factor_py`, `factor_para` are NaN at q = 0.
* **C55** beyond the last datum the first datum is returned.
* **C56** albedo counted twice: an absorbing thick film does not tend to the semi-infinite value.
* **C58** narrow branch: the width of the Gaussian is computed from each diameter.
* **C60** UnboundLocalError; cartesian coordinates without k ignored.
* **C61** light of trajectories without reflection event is dropped from the incoherent intensity.
* **C62** co/cross intensities are not divided by ntraj.
* **C63** dwell time is added once, however many scatterings; the last step is counted beyond the boundary.
* **C64** `2πr²` in mu_scat, `πr²` in mu_abs.
* **C65** `calc_pdf` writes into the caller's `refl_indices`.
* **C66/C67** even counts, hard-coded 300, mean not in list; pdf values used as probabilities on an uneven list; pdi = 0.
* **C68** `shift_traj_tir` flips every trajectory from the second event on.
* **C69** `z0 = -inf` is not replaced.
* **C70** the refracted direction is used as angle of incidence on entering a sphere.
* **C71** the azimuthal marginal lacks the `sin θ` weight.
* **C72** the wavelength asked for is rounded to two decimals in the unit of the data.
* **C76** concentrations `[0, 1]` give number density 0/0.
* **C80** a parameter missing from the list silently gets a zero step.
* **C83** weights and cosines can differ in number: ValueError.
* **C85** stuck light restarts at the pole with zero direction; totally reflected light restarts with the weight of its last
  event; for films the summed event numbers can raise IndexError.
* **C86** `effective_medium_form` without `effective_medium_struct` still evaluates the structure factor in the effective index.
* **C87** with `effective_medium_form=False` absorption is that of the bare matrix.
* **C88** a missing `radius2` or `concentration` is never refused (the check is dead code).
* **C92** wavenumber step `1/r_max` instead of `pi/r_max`: the transforms of `radial_dist_py` do not undo each other.
* **C94** `phase_factor` uses one eighth of the number density.

Observed while modelling, not turned into properties: nested re-runs have one more event per level (`nevents = x.shape[0]`);
the polydisperse check of `calc_scat` is dead code; `calc_fields` called twice uses a stale Ez; `calc_tir` subtracts
`inc_refl_per_traj`, which is already divided by ntraj; `n_eff` does not check `fsolve` convergence;
`calc_tir_phase_event_input` calls functions that do not exist.
* **C102** light reflected at first incidence is tested against the detection angle with its refracted angle inside the sample.
* **C101** (goniometer) reflected photons that miss the detector are booked as absorbed, which changes the proportions used to share out light of unknown final state.
* **C106** for phase functions on a (theta, phi) grid the azimuths run from `min_angle` to 2 pi including both ends, so the
  forward-x azimuth is (nearly) counted twice and azimuthally symmetric scattering is sampled with a bias.
* **C107** (consequence of C32) the code applies each new rotation about the laboratory axes.  The direction after n events
  has the right mean, but the directions before and after an event are correlated too weakly: with scattering by exactly 60
  degrees at every event the mean cosine between directions 1 and 2 is 1/8 instead of 1/2 (proved), in general
  `g(1/3 + 2/3((3c-1)/2)^n)` instead of `g`.
* **C110, C111** `Trajectory.absorb` reduces the weight of event e by absorption along the whole e-th step, also when the photon
  leaves the sample within that step.  Light that leaves is absorbed outside the sample: its weight is too small by
  `exp(-mu_abs * (part of the step outside))`, and the mean weight of unscattered transmitted light is `mu/(mu + mu_abs)` times
  Beer's law.
* **C113** `calc_pdf` overwrites the caller's `refl_indices` by 1 (C65); a second call of `calc_pdf` or `calc_scat_bulk` with the
  same arrays and `kz` given silently builds the phase function from the directions at the first event.
* **C115** `phi_dependent=True` never works: `np.vstack` of arrays of different length, or `gaussian_kde` called with two
  arguments.
* **C117** In a polydisperse system the size parameter inside the particle is computed once, from the mean diameter, and used for
  every diameter of the distribution; an unknown `form_type` returns 0 (transparent matrix) or raises UnboundLocalError.
* **C119** `calc_tir(phase=True)` and `calc_tir_phase_event_input` raise AttributeError for every input: `Trajectory` has no
  `polarization`, `structcol.detector` no `calc_traj_time`.
* **C120** For a complex index of the second medium `fresnel_reflection` takes the modulus inside the square root, so the square
  root is real: at normal incidence from air into an absorbing sample `r_perp` is too small and `r_par` too large (they should be
  equal), and with Im n > Re n `r_par` exceeds 1.  Only `model.reflection` is affected; detector.py passes moduli.
* **C121** With concentrations `[0, c]` and two different radii `reflection` takes the number density from the first radius, which is not
  in the sample; `calc_scat` takes it from the second.  The default smallest angles differ too (1 degree and 0.01).
* **C123** `plot_refl_event_sum_norm` adds fractions of different totals, so the drawn reflectance can exceed 1 (3/2 in the
  counterexample); a negative event number is normalised by 1 instead of by the light still in the sample.
* **C124** The file name of `save_data` has no units and only the *number* of wavelengths: samples with radius 120 nm and 120 µm, or
  spectra over different ranges, silently overwrite each other; a plain number for a parameter raises AttributeError.
* **C125** Because `scatter` turns every direction about the laboratory axes instead of the photon's own (C107), the mean squared
  displacement per event tends to `(2/mu²)(1 + g/(3(1−g)))` instead of `2/(mu²(1−g))`: light scattered by 60° at every event spreads at
  two thirds of the right rate, and strongly forward-peaked scattering at a third.  The mean depth (C108) is nevertheless right.
* **C126** For light at oblique incidence from one azimuth `alpha` (`incidence_phi_min = incidence_phi_max`), `scatter` gives
  `kz = cos theta cos a − sin theta sin a cos alpha` after the first event: the sampled azimuth plays no role.  With right-angle scattering
  all light from azimuth 0 turns back and none from azimuth pi, instead of half in either case.  With the default, uniform azimuth the
  inclinations have the right distribution.
* **C132** `calc_diam_list` searches diameters from `linspace(1, …)` in the unit of the mean: a mean of 0.2 um and one of 200 nm give
  different lists, and with any mean of at most half a unit every diameter returned is at least twice the mean.
* **C133** `polydisperse_form_factor` replaces a negative smallest diameter by `Quantity(0.000001, diameters.units)`.  With a polydispersity
  index above 1/3 and diameters given in metres the form factor is averaged over diameters larger than the largest of the distribution.
* **C134** for a sphere, the side through which refracted light is counted as leaving depends on the unit of length: in a small enough
  unit all light leaving obliquely through the far half is counted as reflected and all through the near half as transmitted
  (consequence of the unnormalised axis of `rotate_refract`, C24).
* **C135** the coherent reflectance depends on the unit of length (phase `k² L` instead of `k L`, C42): two photons with a path difference
  of half a wavelength give 2 in one unit and 0 in another.
* **C136** the three-coefficient law with the tabulated coefficients gives every graded Cargille liquid its nominal index at 589.3 nm within 0.00004; since the third term is discarded (C52), every liquid of series A, B and E comes out too low, in series B by more than three grades.
* **C138** With `detector=True` the *transmittance* changes too (it drops): the photons reflected elsewhere no longer count as known
  outcomes, so less of the light returned by the faces and of the stuck light is distributed to the transmittance.
* **C139** The acceptance of the goniometer is a box in x and y on a hemisphere, not the square: for `det_theta + α/2 ≥ 90°` (α the half
  angle of view) not even a photon flying at the centre of the detector is counted, and a detector on the normal counts photons that pass
  its corners.
* **C140** `plot_phase_func` with azimuths multiplies by `np.diff(theta)[0]`, which is negative for increasing nu: every pixel drawn and saved is
  negative; `calc_pdf(plot=True)` fails with UnboundLocalError when no photon leaves; exits are drawn at azimuth + pi, so the angles do not lead
  `calc_directions` back to them.
* **C142** A goniometer with a sphere refracts at the plane z=0, changes the transmittance, can raise ValueError, and reads the specular reflection when run_fresnel_traj=True (C142).
* **C144** C144: for films averaging batches is not the same as one run (light sent back at the faces is distributed by fractions of the whole run); the difference is at most the light sent back.
* **C146** C146_absorbing_refuted: light that is totally reflected inside an absorbing sphere is attenuated by every simulated event, including all those after it has reached the surface, so that the reflectance and transmittance depend on `nevents` and the part of the light that was totally reflected disappears as `nevents` grows.
* **C147** C147_threshold_refuted: with the defaults of `calc_refl_trans` (re-runs as long as more than `max_stuck = 0.01` of the light is undecided) the transmittance of a sphere can grow with its absorption: as soon as the undecided light falls below the threshold, half of it is counted as transmitted (and half as reflected) instead of being followed.
* **C149** C149_absorbing_clear_film_refuted: for every absorbing film the transmittance returned goes to 0 as the scattering coefficient goes to 0, because absorption is applied to the whole last step, not to its part inside the film; the plate's transmittance does not depend on scattering. C149_clear_film_refuted: without absorption the transmittance is short of the plate's by r^2(1-r)/(1+r) (light reflected inside is followed once).
* **C151** C151_haze_refuted: calc_haze compares the angle inside the film with the cutoff; for a film of index 3/2 in air whose photons are all scattered by 4 degrees inside (6 degrees outside) it returns 0 where the haze is 1.
* **C152** C152: the detected cross section of one polarisation is divided by the total cross section averaged over both, so the reflectance for one polarisation can reach 3/2 (index-matched sample scattering backwards in that polarisation), and at oblique incidence even the average over polarisations exceeds 1 (index 2, Brewster's angle).
* **C153** C153_absorbing_refuted: for every absorbing sphere the transmittance returned goes to 0 as the scattering coefficient goes to 0 (absorption is applied to the whole last step, which reaches far beyond the sphere); at least exp(-mu_abs D) is transmitted by a sphere of diameter D.
* **C155** C155_number_refuted: the three panels of plot_coord show all trajectories, whatever number is asked for, and with three_dim asking for more than there are is an IndexError.
* **C160** `calc_thetas_event_traj` lists `theta[ev]` for a trajectory reflected at event `ev`; the last angle that turned it is `theta[ev-2]`, and the one listed is never used before it leaves. Trajectories reflected at the last event are left out, and with the angles of `sample_angles` (one row fewer than events) the function raises IndexError when one is reflected at the last but one event.
* **C161** with `coherent=True, polarized=False` the incident light is not unpolarised: every trajectory starts with the same field, linearly polarised at 45 degrees.

## 7. Wrong programs

`seeded/LOG.jsonl` has one line per mutant of the model, made in a scratch copy: the edited definition, the edit, the claim
it breaks, the theorems that no longer check (directly, or because a lemma they rest on fails) and what was tightened.
