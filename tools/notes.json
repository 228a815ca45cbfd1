{
"C13": {
"status": "partial",
"note": "The property as stated is false of the code: with n_medium > n_sample the test kz_out > cos(nan) never holds, so no event is ever flagged as an exit (witness theorems _refuted). Proved: it holds when n_medium <= n_sample and the direction is inside the critical cone."
},
"C18": {
"status": "partial",
"note": "False in full generality: a batch in which nothing is decided gives 0/0 = NaN (_refuted), and an unreachable inside direction gives NaN incident fraction (_refuted). The _partial theorem gives finiteness when some weight is decided."
},
"C19": {
"status": "partial",
"note": "Termination and the bound of 20 nested calls are proved; the code does not pass max_call_depth (nor n_front, n_back, detection_angle) to nested calls, so the user's bound is not respected beyond the first level (_refuted)."
},
"C24": {
"status": "partial",
"note": "False of the code: the rotation axis k1 x norm is used unnormalised and about a point of the surface, and the rotation sense is reversed (C24_sphere_snell_refuted: a forward ray leaving the far pole is reported as going backward). Proved: NaN exactly on total internal reflection, and the correct result when no deflection occurs."
},
"C65": {
"status": "partial",
"note": "False of the code: calc_pdf overwrites refl_indices in place (C65_*_refuted). Proved: every other array is left alone."
},
"C68": {
"status": "partial",
"note": "False of the code: shift_traj_tir reverses every event after the first for every trajectory; the tir index has no influence (C68_*_refuted). Proved: sizes and the first row are kept."
},
"C69": {
"status": "partial",
"note": "False for z0 = -inf, which is not replaced (C69_inf_to_large_refuted). Proved for the other five coordinates and for z0 = +inf."
},
"C70": {
"status": "partial",
"note": "False of the code: the already refracted inside direction is used as the incidence angle (C70_sphere_entry_angle_refuted, for every oblique entry with different indices). Proved when the indices are equal or the incidence is normal."
},
"C32": {
"status": "partial",
"note": "Unit norms, first direction and idempotence are proved. False of the code: scatter rotates about the fixed axes, so the angle between consecutive directions is not the sampled one (C32_scatter_angle_refuted). Proved instead: it is when the previous direction is along z, and in general the direction of event n is that of a correct local-frame scheme fed the angles in reverse order."
},
"C37": {
"status": "partial",
"note": "Start points are proved. False of the code: the direction is the refraction of the inward normal at a horizontal surface instead of the refraction of the incident ray at the sphere (C37_sphere_direction_refuted: index-matched photons are sent to the centre), and NaN at the pole (C37_sphere_pole_refuted)."
},
"C41": {
"status": "partial",
"note": "Unit norm, Snell angle to the facet, and the mirror reflection are proved. False of the code: the azimuth arccos(kx/|k|) takes the ray out of the plane of incidence (C41_coarse_plane_refuted)."
},
"C42": {
"status": "partial",
"note": "Unit norm and transversality are proved. False of the code: the phase is k^2 L instead of k L (C42_phase_refuted), and the scattering matrix is applied with the already updated x component (C42_scattering_matrix_refuted). tir_refl_bool=None only."
},
"C71": {
"status": "partial",
"note": "Proved for phase functions of theta and for separable phase functions of both angles. False in general: the phi marginal is summed without sin(theta) (C71_joint_refuted)."
},
"C44": {
"status": "partial",
"note": "False of the code: all five arrays are overwritten by refl_indices[0:ntraj], so the tables contain event numbers times counts and never depend on the weights (C44_*_refuted). Proved: the exact content of the tables."
},
"C47": {
"status": "partial",
"note": "False at the last event: the loop stops before nevents (C47_last_event_refuted, C47_tir_lost_refuted). Proved: exact tallies for every event before the last, and reflected <= all."
},
"C52": {
"status": "partial",
"note": "Refuted in two points: the e/w^4 term is a separate discarded statement, so no oil with e != 0 follows the three-coefficient law (C52_cauchy_law_refuted), and negative cardinal numbers are accepted by indexing from the end (C52_negative_accepted_refuted). Proved: argument checks otherwise, the two-term value, physical range, monotonicity in wavelength and in the cardinal number."
},
"C55": {
"status": "partial",
"note": "Refuted above the table: fill_value is the first datum on both sides (C55_above_table_refuted). Proved: exact at data, between neighbours, first datum below (and above) the table."
},
"C72": {
"status": "partial",
"note": "Refuted: the query is rounded to 2 decimals in the unit of the data (C72_index_data_refuted). Proved: interpolation at the rounded query, at most 0.005 units away, exact for queries with two decimals, ValueError outside the table."
},
"C56": {
"status": "partial",
"note": "Fresnel part plus Beer-Lambert scattered part, monotone, bounded by the semi-infinite value, unpolarised = mean: proved. The claim that the thick limit is the semi-infinite value holds without absorption and is refuted with it (albedo counted twice)."
},
"C58": {
"status": "partial",
"note": "Normalisation and non-negativity proved in both branches; that the narrow branch is a Gaussian about the mean is refuted (its width is computed from each diameter)."
},
"C60": {
"status": "partial",
"note": "Exact characterisation of differential_cross_section's dispatch proved. Refuted: effective_medium_form without effective_medium_struct raises UnboundLocalError; cartesian coordinates without k are ignored."
},
"C76": {
"status": "partial",
"note": "Proved for positive concentrations, one species, and a vanishing second concentration; refuted for a vanishing first one."
},
"C62": {
"status": "partial",
"note": "Proved up to normalisation: the three intensities add up to ntraj times the reflectance returned; refuted as stated (they are not divided by the number of trajectories)."
},
"C64": {
"status": "partial",
"note": "Proved: mu_scat and mu_abs formulas, non-negativity and their sum. Refuted: the scattering coefficient normalises by 2 pi r^2 and the absorption coefficient by pi r^2, so extinction is inconsistent."
},
"C66": {
"status": "partial",
"note": "Proved for the default 600 points: length 2*(num_diam//2)+1 (the requested number when odd), sorted, on the grid, contains the mode on the grid; equal spacing. Refuted: an even num_diam gives one more; num_diam lists from fewer than 601 points can raise IndexError; the mean itself need not be in the list."
},
"C80": {
"status": "partial",
"note": "Proved for every mixture in which each drawn parameter is listed. Refuted: a parameter that is not in the list silently gets step 0."
},
"C83": {
"status": "partial",
"note": "Proved: the pairing when every kept weight is nonzero (kz branch) and no exit lies on the equator (z branch); normalisation on the grid. Refuted: with a zero-weight exit or an equator exit data and weights differ in length and the density estimate raises ValueError."
},
"C84": {
"status": "proved",
"note": "Whole sphere branch of find_valid_exits composed with find_event_indices; TIR criterion from the true angle of incidence. That the sign of the refracted z direction itself is right is C24 (partial)."
},
"C85": {
"status": "partial",
"note": "Proved for light that meets the surface (position, mirror direction, into the sphere). Refuted: stuck photons restart at the pole with zero direction; TIR light restarts with the weight of its last event; for a film the summed event numbers can raise IndexError."
},
"C86": {
"status": "partial",
"note": "Proved for three of the four flag combinations; effective_medium_form without effective_medium_struct evaluates the structure factor in the effective index all the same (refuted)."
},
"C87": {
"status": "partial",
"note": "Fine roughness part proved. Absorption coefficient proved with effective_medium_form; refuted without it (bare matrix: absorbing particles in a clear matrix do not absorb)."
},
"C88": {
"status": "partial",
"note": "pdi and layer checks proved; a missing radius2 or concentration is never refused because both are given defaults before the check (refuted)."
},
"C90": {
"status": "proved",
"note": "The end of the slope grid is the double np.pi/2, modelled as any number below the mathematical value. Underflow of P_theta_a (the NaN branch for tiny positive roughness) is outside real arithmetic; the branch itself is modelled and reached at roughness 0."
},
"C91": {
"status": "proved",
"note": "Values between grid points depend on scipy's spline, which is a parameter assumed to pass through its data. Volume fractions excluded: 1 and at most 8192 values, none of them between 0 and 0.07."
},
"C92": {
"status": "partial",
"note": "False of the code: the wavenumber step is 1/r_max instead of pi/r_max; a spike comes back with at most 2/pi of its height, for every grid (C92_transforms_refuted). Linearity holds."
},
"C93": {
"status": "proved",
"note": "rng.choice is a parameter (draws); the spline is a parameter."
},
"C94": {
"status": "partial",
"note": "False of the code: rho is 3 phi/(4 pi), one eighth of the density radial_dist_py uses (C94_density_refuted); nothing weaker is worth keeping beyond proportionality, which is part of that theorem."
},
"C100": {
"status": "proved",
"note": "complete smooth-sphere run incl. all re-run generations; start draw exactly 0 excluded (C37)"
},
"C101": {
"status": "proved",
"note": "smooth film, coarse roughness, goniometer; against SpecFilm.lean"
},
"C102": {
"status": "partial",
"note": "refuted for oblique incidence on a denser sample with detection angle < 90 deg; proved for normal incidence, equal indices, full hemisphere"
},
"C106": {
"status": "partial",
"note": "Proved for phase functions of theta (C106_azimuth_unbiased_partial); false for phase functions on a (theta, phi) grid (C106_azimuth_grid_refuted, for every grid size): the grid contains both 0 and 2 pi."
},
"C107": {
"status": "partial",
"note": "C107_mean_direction_partial: the mean direction after n events is (0,0,g^n). The second half is false of the code: C107_persistence_refuted gives the mean cosine of successive directions, g(1/3+2/3((3c-1)/2)^n), strictly nearer zero than g for every event after the first."
},
"C109": {
"status": "proved",
"note": "Fate is decided by what exit_kz returns (C24 says when that is wrong); C109_matched_sphere removes this reference for an index-matched surface. Hypotheses on the bundle: starts on the surface pointing inwards, exit steps straight and below the 1e20 R replacement level."
},
"C110": {
"status": "partial",
"note": "inequality and the cases without absorption or with the step ending at the surface proved; equality refuted: absorption is applied to the whole last step"
},
"C111": {
"status": "partial",
"note": "probability proved; the mean weight refuted for absorbing samples (factor mu/(mu+mu_abs))"
},
"C112": {
"status": "proved",
"note": "almost sure convergence, mean and variance"
},
"C113": {
"status": "partial",
"note": "holds with exit positions, and for the coefficients; refuted with exit directions (refl_indices is overwritten)"
},
"C114": {
"status": "proved",
"note": "sphere run, bulk parameters and film run composed"
},
"C115": {
"status": "partial",
"note": "refuted: every call raises"
},
"C117": {
"status": "partial",
"note": "Refuted in two respects: polydisperse systems use the internal size parameter of the mean diameter for every diameter; unknown form types give 0 or UnboundLocalError. Bounds and dispatch proved."
},
"C119": {
"status": "partial",
"note": "Refuted: both functions raise AttributeError for every input. What the formula would give is characterised."
},
"C116": {
"status": "proved",
"note": "Exact circular convolution; exact arithmetic."
},
"C118": {
"status": "proved",
"note": "Equality of laws of the whole row of directions at each event."
},
"C120": {
"status": "partial",
"note": "Refuted for light entering an absorbing sample; exact for leaving, fractions for Im n <= Re n, real indices as C05."
},
"C121": {
"status": "partial",
"note": "Refuted for a sample of the second species only with two different radii; proved otherwise."
},
"C122": {
"status": "proved",
"note": "pymie's integral is a parameter assumed to be a non-negative quadrature."
},
"C123": {
"status": "partial",
"note": "Proved: every normalised event plot is a fraction in [0,1], survival product, summed plot = total, distribution plot. Refuted: the summed normalised plot exceeds 1; negative events are not normalised."
},
"C124": {
"status": "partial",
"note": "Proved for all sessions: data survive unless a later call shows the same names, counts and magnitudes. Refuted: units and wavelength values are not in the name, underscores are ambiguous, plain numbers raise AttributeError."
},
"C125": {
"status": "partial",
"note": "The exact mean squared displacement of the code's walk is proved for every phase function, coefficient and number of events; it differs from the textbook value (refuted for g > 0 and at least three events, and in the diffusion limit)."
},
"C126": {
"status": "partial",
"note": "Proved for the default azimuth of incidence (uniform over the circle): all inclinations at any one event have jointly the distribution of own-frame scattering. Refuted for light from one azimuth: the code's inclination after the first event ignores the sampled azimuth; right-angle scattering sends all or none of the light back depending on the azimuth of incidence."
},
"C127": {
"status": "proved",
"note": "Film: exponential bound for the probability that a photon is still inside after nev+1 events, with constants that depend only on the film, the scattering coefficient and the phase function; the probability of the stuck warning tends to 0. For spheres the corresponding statement is false of the code because of C84 (light totally reflected at its first exit stays stuck)."
},
"C128": {
"status": "proved",
"note": "without a goniometer; the second part assumes the medium is not denser than the sample, as C127 does"
},
"C129": {
"status": "proved",
"note": "Transparent samples (real indices). The finite-thickness factor is the code's own, including the albedo (C56 discusses it)."
},
"C130": {
"status": "proved",
"note": "Grid angles from the smallest angle to pi; the normalisation of the phase function may depend on the grid, as calc_scat's does."
},
"C131": {
"status": "proved",
"note": "Limits in both orders named in the statement: first the grid, then the number of steps."
},
"C132": {
"status": "partial",
"note": "Refuted for calc_diam_list with its default spacing: the search starts at the number 1 in whatever unit. The equally spaced list and the sampling are unit-free."
},
"C133": {
"status": "partial",
"note": "Refuted for polydisperse_form_factor with a polydispersity index above 1/3 (smallest diameter 1e-6 in whatever unit); proved up to 1/3, and for reflection and calc_scat given unit-free differential cross sections."
},
"C134": {
"status": "partial",
"note": "proved for an index-matched surface; refuted for refracting surfaces: the side of exit and the reflectance depend on the unit of length (unnormalised rotation axis)"
},
"C135": {
"status": "partial",
"note": "proved for the moduli of the fields and the incoherent reflectance; refuted for the coherent reflectance (phase k^2 L)"
},
"C136": {
"status": "partial",
"note": "Refuted as stated (third Cauchy term discarded): proved that the tables with all three coefficients match the grades, and by how much the returned values differ."
},
"C137": {
"status": "proved",
"note": "Smooth films without goniometer, any beam, phase function, absorption and plates; limit formula in SpecLimit.lean. C137_absorbing_known shows the condition meanKnown != 0 for absorbing films."
},
"C138": {
"status": "partial",
"note": "C138_fewer_photons_read_less, C138_reads_less_than_all, C138_no_photon_no_reading and C138_point_detector prove the claims about the reflectance for every run that does not give NaN; that the transmittance does not depend on the detector is false of the code (C138_transmittance_refuted)."
},
"C139": {
"status": "partial",
"note": "proved for rays in the plane of the detector when the whole detector is on the reflection side (C139_square_detector_partial) and, one way, for detectors on the normal (C139_on_normal_partial); the full claim is false of the code (C139_centre_ray_refuted, C139_corner_refuted)."
},
"C140": {
"status": "partial",
"note": "the curve over theta and plot_dist_1d are normalised (C140_polar_plot_partial, C140_dist_plot_partial), the map is for decreasing nu (C140_heatmap_partial) and the polar angle of exits is right (C140_exit_point_partial); false of the code: the map for increasing nu (C140_heatmap_refuted), plot=True without exits (C140_plot_without_exits_refuted), azimuths (C140_exit_azimuth_refuted)."
},
"C141": {
"status": "proved",
"note": "C141_photon_settles, C141_trajectories_then_events, C141_events_then_trajectories, C141_limit_values, C141_known_grows, C141_mean_events."
},
"C142": {
"status": "partial",
"note": "C142_counted_at_plane_partial, C142_no_photon_no_reading, C142_point_detector proved; C142_direction_refuted (refraction at z=0 instead of the sphere), C142_transmittance_refuted (shift_traj_tir turns paths upside down before angles are computed: T changes), C142_error_refuted (ValueError from an obtuse exit angle), C142_rerun_reads_refuted (specular and nested reflection are counted when light is re-run)."
},
"C143": {
"status": "proved",
"note": "Non-asymptotic version of C137: explicit probability and error."
},
"C144": {
"status": "partial",
"note": "True for spheres seen over the full hemispheres, without re-runs or with re-runs forced (max_stuck < 0); refuted for films (two photons), where the difference is bounded by the light sent back at the faces."
},
"C145": {
"status": "proved",
"note": "For runs without re-runs or with re-runs forced (max_stuck < 0), where C144 makes the photons independent; detectors covering the hemispheres; no fine roughness together with Mie steps."
},
"C146": {
"status": "partial",
"note": "Proved for spheres without absorption (C146_lossless_settles_partial; all random numbers, all treatments of the light sent back) and, for all spheres, the bound on the probability that a photon has not left (C146_light_leaves). Refuted with absorption: totally reflected light gets the weight of the last simulated event (C146_absorbing_refuted)."
},
"C147": {
"status": "partial",
"note": "Proved for detectors that see the whole hemispheres and runs without re-runs or with re-runs forced (max_stuck < 0). Refuted for re-runs that stop at max_stuck, the default (C147_threshold_refuted)."
},
"C148": {
"status": "proved",
"note": "Detector over the hemispheres, no goniometer, no roughness. For films whose index differs from the surroundings the claim fails path by path: light sent back at a face is shared out according to the fates of the other photons (C144)."
},
"C149": {
"status": "partial",
"note": "Proved without absorption up to the square of the surface reflectance (C149_clear_film_partial, with R = 1 - T exactly). Refuted as an equality (index 3/2, normal incidence: off by more than 0.001) and, badly, with absorption: T goes to 0."
},
"C150": {
"status": "proved",
"note": "Equality of the results, exceptions and nan included, with no hypotheses on the arguments. A goniometer sits at a finite distance, so place matters there by design."
},
"C151": {
"status": "partial",
"note": "Proved: on every complete run with a positive transmittance calc_haze returns a fraction, the haze for the larger cutoff outside given by Snell's law (so never more than the haze, equal for matched indices). Refuted otherwise: the angle inside the film is used."
},
"C152": {
"status": "partial",
"note": "Proved: the limit is not negative, at most 1 plus half the difference of the two Fresnel reflectances of the surface, hence at most 1 at normal incidence or for equal indices. Refuted for one polarisation and for the average at oblique incidence."
},
"C153": {
"status": "partial",
"note": "Proved without absorption (R = 1 - T, T within 2e-9 of 1, the code's regularisation). Refuted with absorption."
},
"C154": {
"status": "proved",
"note": "For every sample whose index has no imaginary part. The differential cross section and Mie's absorption cross section are parameters."
},
"C155": {
"status": "partial",
"note": "Proved: what is drawn are the positions after each step, and the clouds are those of the first ntraj trajectories in distinct colours. Refuted: the panels ignore ntraj."
},
"C156": {
"status": "proved",
"note": "Runs without initial fields and with a phase function of theta. The generator's numbers themselves are an arbitrary stream; for the error, independent uniform numbers."
},
"C157": {
"status": "proved",
"note": "Smooth films without goniometer and without given angles, phase function of theta. A run in which no light has a known final state (NaN) counts as 0."
},
"C158": {
"status": "proved",
"note": "One-dimensional phase functions, smooth spheres (coarse roughness is refused for spheres); the count of numbers drawn depends on the data, because it depends on how often light is run again. If rng is not passed to calc_refl_trans, the re-runs draw from the module's generator (givenRerun in the model); the theorems are about runs in which both get the same."
},
"C159": {
"status": "proved",
"note": "The numbers are strictly between 0 and 1 (numpy can deliver 0, with probability 2^-53). One-dimensional phase functions; the fine roughness of the sampled steps 0 or no Mie step."
},
"C160": {
"status": "partial",
"note": "Proved: the layout of the table, for arrays with a row for each event, and which angle the last turn was. Refuted: the angles listed (off by two events), the last event, and the angles of sample_angles, which have one row less."
},
"C161": {
"status": "partial",
"note": "Proved for coherent=False, polarised and unpolarised. Refuted: unpolarised light with coherent=True, which is linearly polarised at 45 degrees."
}
}