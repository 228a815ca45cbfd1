{
 "claims": [
  {
   "property": "C01",
   "status": "proved",
   "theorems": [
    "Verif.Props.C01_refraction_snell"
   ],
   "note": ""
  },
  {
   "property": "C02",
   "status": "proved",
   "theorems": [
    "Verif.Props.C02_refraction_roundtrip",
    "Verif.Props.C02_refraction_equal_index",
    "Verif.Props.C02_refraction_odd",
    "Verif.Props.C02_refraction_strictMono"
   ],
   "note": ""
  },
  {
   "property": "C03",
   "status": "proved",
   "theorems": [
    "Verif.Props.C03_normalize_unit",
    "Verif.Props.C03_normalize_zero",
    "Verif.Props.C03_normalize_columnwise"
   ],
   "note": ""
  },
  {
   "property": "C04",
   "status": "proved",
   "theorems": [
    "Verif.Props.C04_select_events_2d",
    "Verif.Props.C04_select_events_3d",
    "Verif.Props.C04_select_events_out_of_range"
   ],
   "note": ""
  },
  {
   "property": "C05",
   "status": "proved",
   "theorems": [
    "Verif.Props.C05_fresnel_fractions",
    "Verif.Props.C05_fresnel_textbook"
   ],
   "note": ""
  },
  {
   "property": "C06",
   "status": "proved",
   "theorems": [
    "Verif.Props.C06_fresnel_range_check",
    "Verif.Props.C06_fresnel_tir"
   ],
   "note": ""
  },
  {
   "property": "C07",
   "status": "proved",
   "theorems": [
    "Verif.Props.C07_fresnel_index_match",
    "Verif.Props.C07_fresnel_normal",
    "Verif.Props.C07_fresnel_brewster",
    "Verif.Props.C07_fresnel_grazing",
    "Verif.Props.C07_fresnel_reciprocity",
    "Verif.Props.C07_fresnel_special"
   ],
   "note": ""
  },
  {
   "property": "C08",
   "status": "proved",
   "theorems": [
    "Verif.Props.C08_pass_frac_fraction",
    "Verif.Props.C08_pass_frac_zero_iff",
    "Verif.Props.C08_pass_frac_single",
    "Verif.Props.C08_pass_frac_series",
    "Verif.Props.C08_pass_frac_reversible",
    "Verif.Props.C08_pass_frac_textbook"
   ],
   "note": ""
  },
  {
   "property": "C09",
   "status": "proved",
   "theorems": [
    "Verif.Props.C09_exactly_one_outcome"
   ],
   "note": ""
  },
  {
   "property": "C10",
   "status": "proved",
   "theorems": [
    "Verif.Props.C10_first_exit"
   ],
   "note": ""
  },
  {
   "property": "C11",
   "status": "proved",
   "theorems": [
    "Verif.Props.C11_film_exit_face",
    "Verif.Props.C11_film_side"
   ],
   "note": ""
  },
  {
   "property": "C12",
   "status": "proved",
   "theorems": [
    "Verif.Props.C12_film_flags_exclusive",
    "Verif.Props.C12_film_cone",
    "Verif.Props.C12_sphere_flags_exclusive"
   ],
   "note": ""
  },
  {
   "property": "C13",
   "status": "partial",
   "theorems": [
    "Verif.Props.C13_no_exit_into_denser_medium_refuted",
    "Verif.Props.C13_all_stuck_in_denser_medium_refuted",
    "Verif.Props.C13_exit_when_medium_not_denser_partial"
   ],
   "note": "The property as stated is false of the code: with n_medium > n_sample the test kz_out > cos(nan) never holds, so no event is ever flagged as an exit (witness theorems _refuted). Proved: it holds when n_medium <= n_sample and the direction is inside the critical cone."
  },
  {
   "property": "C14",
   "status": "proved",
   "theorems": [
    "Verif.Props.C14_stuck_warning",
    "Verif.Props.C14_outcomes_sum",
    "Verif.Props.C14_outcomes_exact"
   ],
   "note": ""
  },
  {
   "property": "C15",
   "status": "proved",
   "theorems": [
    "Verif.Props.C15_film_fractions",
    "Verif.Props.C15_roughness_args",
    "Verif.Props.C15_per_traj_sum"
   ],
   "note": ""
  },
  {
   "property": "C16",
   "status": "proved",
   "theorems": [
    "Verif.Props.C16_energy_balance",
    "Verif.Props.C16_lossless"
   ],
   "note": ""
  },
  {
   "property": "C17",
   "status": "proved",
   "theorems": [
    "Verif.Props.C17_detection_monotone"
   ],
   "note": ""
  },
  {
   "property": "C18",
   "status": "partial",
   "theorems": [
    "Verif.Props.C18_all_stuck_nan_refuted",
    "Verif.Props.C18_nan_witness_refuted",
    "Verif.Props.C18_film_finite_partial"
   ],
   "note": "False in full generality: a batch in which nothing is decided gives 0/0 = NaN (_refuted), and an unreachable inside direction gives NaN incident fraction (_refuted). The _partial theorem gives finiteness when some weight is decided."
  },
  {
   "property": "C19",
   "status": "partial",
   "theorems": [
    "Verif.Props.C19_depth_bounded_partial",
    "Verif.Props.C19_max_call_depth_ignored_refuted"
   ],
   "note": "Termination and the bound of 20 nested calls are proved; the code does not pass max_call_depth (nor n_front, n_back, detection_angle) to nested calls, so the user's bound is not respected beyond the first level (_refuted)."
  },
  {
   "property": "C20",
   "status": "proved",
   "theorems": [
    "Verif.Props.C20_rerun_total",
    "Verif.Props.C20_rerun_adds_at_most_undecided"
   ],
   "note": ""
  },
  {
   "property": "C21",
   "status": "proved",
   "theorems": [
    "Verif.Props.C21_sphere_intersect",
    "Verif.Props.C21_sphere_miss"
   ],
   "note": ""
  },
  {
   "property": "C22",
   "status": "proved",
   "theorems": [
    "Verif.Props.C22_mirror"
   ],
   "note": ""
  },
  {
   "property": "C23",
   "status": "proved",
   "theorems": [
    "Verif.Props.C23_rotation",
    "Verif.Props.C23_rotation_add"
   ],
   "note": ""
  },
  {
   "property": "C24",
   "status": "partial",
   "theorems": [
    "Verif.Props.C24_sphere_tir_partial",
    "Verif.Props.C24_sphere_straight_partial",
    "Verif.Props.C24_sphere_snell_refuted"
   ],
   "note": "False of the code: the rotation axis k1 x norm is used unnormalised and about a point of the surface, and the rotation sense is reversed (C24_sphere_snell_refuted: a forward ray leaving the far pole is reported as going backward). Proved: NaN exactly on total internal reflection, and the correct result when no deflection occurs."
  },
  {
   "property": "C25",
   "status": "proved",
   "theorems": [
    "Verif.Props.C25_film_refraction",
    "Verif.Props.C25_film_refraction_nan"
   ],
   "note": ""
  },
  {
   "property": "C26",
   "status": "proved",
   "theorems": [
    "Verif.Props.C26_detected_iff",
    "Verif.Props.C26_larger_detector"
   ],
   "note": ""
  },
  {
   "property": "C27",
   "status": "proved",
   "theorems": [
    "Verif.Props.C27_film_angle",
    "Verif.Props.C27_film_angle_even",
    "Verif.Props.C27_sphere_no_event"
   ],
   "note": ""
  },
  {
   "property": "C28",
   "status": "proved",
   "theorems": [
    "Verif.Props.C28_haze_fraction"
   ],
   "note": ""
  },
  {
   "property": "C29",
   "status": "proved",
   "theorems": [
    "Verif.Props.C29_goniometer"
   ],
   "note": ""
  },
  {
   "property": "C30",
   "status": "proved",
   "theorems": [
    "Verif.Props.C30_caller_arrays_unchanged"
   ],
   "note": ""
  },
  {
   "property": "C31",
   "status": "proved",
   "theorems": [
    "Verif.Props.C31_absorb_beer_lambert",
    "Verif.Props.C31_absorb_bounds",
    "Verif.Props.C31_absorb_zero_add"
   ],
   "note": ""
  },
  {
   "property": "C32",
   "status": "partial",
   "theorems": [
    "Verif.Props.C32_scatter_unit",
    "Verif.Props.C32_scatter_angle_partial",
    "Verif.Props.C32_scatter_angle_refuted",
    "Verif.Props.C32_scatter_reversed_history_partial"
   ],
   "note": "Unit norms, first direction and idempotence are proved. False of the code: scatter rotates about the fixed axes, so the angle between consecutive directions is not the sampled one (C32_scatter_angle_refuted). Proved instead: it is when the previous direction is along z, and in general the direction of event n is that of a correct local-frame scheme fed the angles in reverse order."
  },
  {
   "property": "C33",
   "status": "proved",
   "theorems": [
    "Verif.Props.C33_move_steps",
    "Verif.Props.C33_move_distances",
    "Verif.Props.C33_move_idempotent"
   ],
   "note": ""
  },
  {
   "property": "C34",
   "status": "proved",
   "theorems": [
    "Verif.Props.C34_sample_step_error",
    "Verif.Props.C34_sample_step_values",
    "Verif.Props.C34_sample_step_monotone",
    "Verif.Props.C34_fine_roughness_count"
   ],
   "note": ""
  },
  {
   "property": "C35",
   "status": "proved",
   "theorems": [
    "Verif.Props.C35_sample_angles_1d",
    "Verif.Props.C35_sample_angles_2d",
    "Verif.Props.C35_sample_angles_rejects"
   ],
   "note": ""
  },
  {
   "property": "C36",
   "status": "proved",
   "theorems": [
    "Verif.Props.C36_film_initial"
   ],
   "note": ""
  },
  {
   "property": "C37",
   "status": "partial",
   "theorems": [
    "Verif.Props.C37_sphere_positions_partial",
    "Verif.Props.C37_sphere_direction_partial",
    "Verif.Props.C37_sphere_direction_refuted",
    "Verif.Props.C37_sphere_pole_refuted"
   ],
   "note": "Start points are proved. False of the code: the direction is the refraction of the inward normal at a horizontal surface instead of the refraction of the incident ray at the sphere (C37_sphere_direction_refuted: index-matched photons are sent to the centre), and NaN at the pole (C37_sphere_pole_refuted)."
  },
  {
   "property": "C38",
   "status": "proved",
   "theorems": [
    "Verif.Props.C38_initialize_validation"
   ],
   "note": ""
  },
  {
   "property": "C39",
   "status": "proved",
   "theorems": [
    "Verif.Props.C39_number_density",
    "Verif.Props.C39_number_density_mono",
    "Verif.Props.C39_coefficients"
   ],
   "note": ""
  },
  {
   "property": "C40",
   "status": "proved",
   "theorems": [
    "Verif.Props.C40_phase_function"
   ],
   "note": ""
  },
  {
   "property": "C41",
   "status": "partial",
   "theorems": [
    "Verif.Props.C41_coarse_snell_partial",
    "Verif.Props.C41_coarse_plane_refuted",
    "Verif.Props.C41_initialize_coarse_partial"
   ],
   "note": "Unit norm, Snell angle to the facet, and the mirror reflection are proved. False of the code: the azimuth arccos(kx/|k|) takes the ray out of the plane of incidence (C41_coarse_plane_refuted)."
  },
  {
   "property": "C42",
   "status": "partial",
   "theorems": [
    "Verif.Props.C42_fields_unit",
    "Verif.Props.C42_fields_transverse",
    "Verif.Props.C42_phase_factor_partial",
    "Verif.Props.C42_phase_refuted",
    "Verif.Props.C42_scattering_matrix_partial",
    "Verif.Props.C42_scattering_matrix_refuted",
    "Verif.Props.C42_initial_fields"
   ],
   "note": "Unit norm and transversality are proved. False of the code: the phase is k^2 L instead of k L (C42_phase_refuted), and the scattering matrix is applied with the already updated x component (C42_scattering_matrix_refuted). tir_refl_bool=None only."
  },
  {
   "property": "C43",
   "status": "proved",
   "theorems": [
    "Verif.Props.C43_event_distribution_entries",
    "Verif.Props.C43_event_distribution_total"
   ],
   "note": ""
  },
  {
   "property": "C44",
   "status": "partial",
   "theorems": [
    "Verif.Props.C44_weights_ignored_refuted",
    "Verif.Props.C44_event_table_partial",
    "Verif.Props.C44_not_expected_refuted"
   ],
   "note": "False of the code: all five arrays are overwritten by refl_indices[0:ntraj], so the tables contain event numbers times counts and never depend on the weights (C44_*_refuted). Proved: the exact content of the tables."
  },
  {
   "property": "C45",
   "status": "proved",
   "theorems": [
    "Verif.Props.C45_pdf_scat",
    "Verif.Props.C45_pdf_scat_no_light"
   ],
   "note": ""
  },
  {
   "property": "C46",
   "status": "proved",
   "theorems": [
    "Verif.Props.C46_fresnel_pdf",
    "Verif.Props.C46_fresnel_pdf_error",
    "Verif.Props.C46_fresnel_avg",
    "Verif.Props.C46_fresnel_avg_error"
   ],
   "note": ""
  },
  {
   "property": "C47",
   "status": "partial",
   "theorems": [
    "Verif.Props.C47_tir_tallies_partial",
    "Verif.Props.C47_last_event_refuted",
    "Verif.Props.C47_tir_lost_refuted",
    "Verif.Props.C47_reflected_le_all"
   ],
   "note": "False at the last event: the loop stops before nevents (C47_last_event_refuted, C47_tir_lost_refuted). Proved: exact tallies for every event before the last, and reflected <= all."
  },
  {
   "property": "C48",
   "status": "proved",
   "theorems": [
    "Verif.Props.C48_path_length",
    "Verif.Props.C48_path_length_is_polygon_length"
   ],
   "note": ""
  },
  {
   "property": "C49",
   "status": "proved",
   "theorems": [
    "Verif.Props.C49_maxwell_garnett",
    "Verif.Props.C49_maxwell_garnett_monotone",
    "Verif.Props.C49_maxwell_garnett_complex"
   ],
   "note": ""
  },
  {
   "property": "C50",
   "status": "proved",
   "theorems": [
    "Verif.Props.C50_residual_is_bruggeman",
    "Verif.Props.C50_bruggeman_between",
    "Verif.Props.C50_bruggeman_unique",
    "Verif.Props.C50_bruggeman_exists",
    "Verif.Props.C50_bruggeman_special",
    "Verif.Props.C50_n_eff_bruggeman"
   ],
   "note": ""
  },
  {
   "property": "C51",
   "status": "proved",
   "theorems": [
    "Verif.Props.C51_n_eff_validation",
    "Verif.Props.C51_maxwell_garnett_lengths"
   ],
   "note": ""
  },
  {
   "property": "C52",
   "status": "partial",
   "theorems": [
    "Verif.Props.C52_cargille_arguments_partial",
    "Verif.Props.C52_negative_accepted_refuted",
    "Verif.Props.C52_cargille_value_partial",
    "Verif.Props.C52_cauchy_law_refuted",
    "Verif.Props.C52_cargille_physical",
    "Verif.Props.C52_cargille_ordered"
   ],
   "note": "Refuted in two points: the e/w^4 term is a separate discarded statement, so no oil with e != 0 follows the three-coefficient law (C52_cauchy_law_refuted), and negative cardinal numbers are accepted by indexing from the end (C52_negative_accepted_refuted). Proved: argument checks otherwise, the two-term value, physical range, monotonicity in wavelength and in the cardinal number."
  },
  {
   "property": "C53",
   "status": "proved",
   "theorems": [
    "Verif.Props.C53_tabulated_material",
    "Verif.Props.C53_vacuum",
    "Verif.Props.C53_unknown_material"
   ],
   "note": ""
  },
  {
   "property": "C54",
   "status": "proved",
   "theorems": [
    "Verif.Props.C54_py_positive",
    "Verif.Props.C54_py_dilute",
    "Verif.Props.C54_py_at_zero",
    "Verif.Props.C54_para_bounds",
    "Verif.Props.C54_para_at_zero",
    "Verif.Props.C54_poly_nonneg"
   ],
   "note": ""
  },
  {
   "property": "C55",
   "status": "partial",
   "theorems": [
    "Verif.Props.C55_field_phase_data_partial",
    "Verif.Props.C55_above_table_refuted",
    "Verif.Props.C55_bad_tables_partial",
    "Verif.Props.C55_interpolation_partial"
   ],
   "note": "Refuted above the table: fill_value is the first datum on both sides (C55_above_table_refuted). Proved: exact at data, between neighbours, first datum below (and above) the table."
  },
  {
   "property": "C56",
   "status": "partial",
   "theorems": [
    "Verif.Props.C56_beer_lambert_partial",
    "Verif.Props.C56_thickness_partial",
    "Verif.Props.C56_thick_limit_refuted"
   ],
   "note": "Fresnel part plus Beer-Lambert scattered part, monotone, bounded by the semi-infinite value, unpolarised = mean: proved. The claim that the thick limit is the semi-infinite value holds without absorption and is refuted with it (albedo counted twice)."
  },
  {
   "property": "C57",
   "status": "proved",
   "theorems": [
    "Verif.Props.C57_core_shell"
   ],
   "note": ""
  },
  {
   "property": "C58",
   "status": "partial",
   "theorems": [
    "Verif.Props.C58_size_distribution_partial",
    "Verif.Props.C58_gaussian_branch_refuted"
   ],
   "note": "Normalisation and non-negativity proved in both branches; that the narrow branch is a Gaussian about the mean is refuted (its width is computed from each diameter)."
  },
  {
   "property": "C59",
   "status": "proved",
   "theorems": [
    "Verif.Props.C59_integral_linear",
    "Verif.Props.C59_integral_monotone",
    "Verif.Props.C59_integral_additive"
   ],
   "note": ""
  },
  {
   "property": "C60",
   "status": "partial",
   "theorems": [
    "Verif.Props.C60_dispatch_partial",
    "Verif.Props.C60_unknown_types_partial",
    "Verif.Props.C60_undefined_variable_refuted",
    "Verif.Props.C60_cartesian_ignored_refuted"
   ],
   "note": "Exact characterisation of differential_cross_section's dispatch proved. Refuted: effective_medium_form without effective_medium_struct raises UnboundLocalError; cartesian coordinates without k are ignored."
  },
  {
   "property": "C61",
   "status": "proved",
   "theorems": [
    "Verif.Props.C61_coherent_bound",
    "Verif.Props.C61_incoherent_sum",
    "Verif.Props.C61_phase"
   ],
   "note": ""
  },
  {
   "property": "C62",
   "status": "partial",
   "theorems": [
    "Verif.Props.C62_co_cross_partial",
    "Verif.Props.C62_transverse",
    "Verif.Props.C62_co_cross_refuted"
   ],
   "note": "Proved up to normalisation: the three intensities add up to ntraj times the reflectance returned; refuted as stated (they are not divided by the number of trajectories)."
  },
  {
   "property": "C63",
   "status": "proved",
   "theorems": [
    "Verif.Props.C63_traj_time",
    "Verif.Props.C63_monotone"
   ],
   "note": ""
  },
  {
   "property": "C64",
   "status": "partial",
   "theorems": [
    "Verif.Props.C64_mu_partial",
    "Verif.Props.C64_normalisation_refuted",
    "Verif.Props.C64_closed_form_partial"
   ],
   "note": "Proved: mu_scat and mu_abs formulas, non-negativity and their sum. Refuted: the scattering coefficient normalises by 2 pi r^2 and the absorption coefficient by pi r^2, so extinction is inconsistent."
  },
  {
   "property": "C65",
   "status": "partial",
   "theorems": [
    "Verif.Props.C65_calc_pdf_mutates_refuted",
    "Verif.Props.C65_calc_pdf_witness_refuted",
    "Verif.Props.C65_calc_pdf_others_partial"
   ],
   "note": "False of the code: calc_pdf overwrites refl_indices in place (C65_*_refuted). Proved: every other array is left alone."
  },
  {
   "property": "C66",
   "status": "partial",
   "theorems": [
    "Verif.Props.C66_diam_list_partial",
    "Verif.Props.C66_diam_list_refuted",
    "Verif.Props.C66_equal_spacing_partial",
    "Verif.Props.C66_heights_partial"
   ],
   "note": "Proved for the default 600 points: length 2*(num_diam//2)+1 (the requested number when odd), sorted, on the grid, contains the mode on the grid; equal spacing. Refuted: an even num_diam gives one more; num_diam lists from fewer than 601 points can raise IndexError; the mean itself need not be in the list."
  },
  {
   "property": "C67",
   "status": "proved",
   "theorems": [
    "Verif.Props.C67_sample_diams",
    "Verif.Props.C67_zero_pdi",
    "Verif.Props.C67_sample_concentration"
   ],
   "note": ""
  },
  {
   "property": "C68",
   "status": "partial",
   "theorems": [
    "Verif.Props.C68_tir_shift_ignores_tir_refuted",
    "Verif.Props.C68_untouched_trajectory_refuted",
    "Verif.Props.C68_tir_shift_sizes_partial"
   ],
   "note": "False of the code: shift_traj_tir reverses every event after the first for every trajectory; the tir index has no influence (C68_*_refuted). Proved: sizes and the first row are kept."
  },
  {
   "property": "C69",
   "status": "partial",
   "theorems": [
    "Verif.Props.C69_inf_to_large_partial",
    "Verif.Props.C69_inf_to_large_value_partial",
    "Verif.Props.C69_inf_to_large_refuted"
   ],
   "note": "False for z0 = -inf, which is not replaced (C69_inf_to_large_refuted). Proved for the other five coordinates and for z0 = +inf."
  },
  {
   "property": "C70",
   "status": "partial",
   "theorems": [
    "Verif.Props.C70_sphere_entry_angle_refuted",
    "Verif.Props.C70_sphere_entry_angle_partial"
   ],
   "note": "False of the code: the already refracted inside direction is used as the incidence angle (C70_sphere_entry_angle_refuted, for every oblique entry with different indices). Proved when the indices are equal or the incidence is normal."
  },
  {
   "property": "C71",
   "status": "partial",
   "theorems": [
    "Verif.Props.C71_sampled_law_refuted",
    "Verif.Props.C71_theta_solid_angle_partial",
    "Verif.Props.C71_separable_partial",
    "Verif.Props.C71_joint_refuted"
   ],
   "note": "Proved for phase functions of theta and for separable phase functions of both angles. False in general: the phi marginal is summed without sin(theta) (C71_joint_refuted)."
  },
  {
   "property": "C72",
   "status": "partial",
   "theorems": [
    "Verif.Props.C72_index_data_refuted",
    "Verif.Props.C72_index_data_partial"
   ],
   "note": "Refuted: the query is rounded to 2 decimals in the unit of the data (C72_index_data_refuted). Proved: interpolation at the rounded query, at most 0.005 units away, exact for queries with two decimals, ValueError outside the table."
  },
  {
   "property": "C73",
   "status": "proved",
   "theorems": [
    "Verif.Props.C73_py_direct_correlation",
    "Verif.Props.C73_py_compressibility",
    "Verif.Props.C73_py_large_q"
   ],
   "note": ""
  },
  {
   "property": "C74",
   "status": "proved",
   "theorems": [
    "Verif.Props.C74_identical_species",
    "Verif.Props.C74_absent_species",
    "Verif.Props.C74_mixture_densities",
    "Verif.Props.C74_species_order",
    "Verif.Props.C74_small_pdi"
   ],
   "note": ""
  },
  {
   "property": "C75",
   "status": "proved",
   "theorems": [
    "Verif.Props.C75_detected_range",
    "Verif.Props.C75_no_error"
   ],
   "note": ""
  },
  {
   "property": "C76",
   "status": "partial",
   "theorems": [
    "Verif.Props.C76_number_density_partial",
    "Verif.Props.C76_number_density_refuted"
   ],
   "note": "Proved for positive concentrations, one species, and a vanishing second concentration; refuted for a vanishing first one."
  },
  {
   "property": "C77",
   "status": "proved",
   "theorems": [
    "Verif.Props.C77_poly_form_factor_bounds"
   ],
   "note": ""
  },
  {
   "property": "C78",
   "status": "proved",
   "theorems": [
    "Verif.Props.C78_asymmetry"
   ],
   "note": ""
  },
  {
   "property": "C79",
   "status": "proved",
   "theorems": [
    "Verif.Props.C79_momentum_transfer"
   ],
   "note": ""
  },
  {
   "property": "C80",
   "status": "partial",
   "theorems": [
    "Verif.Props.C80_mixture_partial",
    "Verif.Props.C80_unlisted_refuted"
   ],
   "note": "Proved for every mixture in which each drawn parameter is listed. Refuted: a parameter that is not in the list silently gets step 0."
  },
  {
   "property": "C81",
   "status": "proved",
   "theorems": [
    "Verif.Props.C81_spacing",
    "Verif.Props.C81_exit_position"
   ],
   "note": ""
  },
  {
   "property": "C82",
   "status": "proved",
   "theorems": [
    "Verif.Props.C82_nearest_direction"
   ],
   "note": ""
  },
  {
   "property": "C83",
   "status": "partial",
   "theorems": [
    "Verif.Props.C83_phase_data_kz_partial",
    "Verif.Props.C83_phase_data_z_partial",
    "Verif.Props.C83_phase_data_refuted",
    "Verif.Props.C83_phase_function_normalised_partial"
   ],
   "note": "Proved: the pairing when every kept weight is nonzero (kz branch) and no exit lies on the equator (z branch); normalisation on the grid. Refuted: with a zero-weight exit or an equator exit data and weights differ in length and the density estimate raises ValueError."
  },
  {
   "property": "C84",
   "status": "proved",
   "theorems": [
    "Verif.Props.C84_sphere_first_exit",
    "Verif.Props.C84_sphere_never_outside",
    "Verif.Props.C84_sphere_total_reflection",
    "Verif.Props.C84_sphere_straight"
   ],
   "note": "Whole sphere branch of find_valid_exits composed with find_event_indices; TIR criterion from the true angle of incidence. That the sign of the refracted z direction itself is right is C24 (partial)."
  },
  {
   "property": "C85",
   "status": "partial",
   "theorems": [
    "Verif.Props.C85_restart_partial",
    "Verif.Props.C85_sphere_event_partial",
    "Verif.Props.C85_stuck_restart_refuted",
    "Verif.Props.C85_tir_weight_refuted",
    "Verif.Props.C85_film_index_error_refuted"
   ],
   "note": "Proved for light that meets the surface (position, mirror direction, into the sphere). Refuted: stuck photons restart at the pole with zero direction; TIR light restarts with the weight of its last event; for a film the summed event numbers can raise IndexError."
  },
  {
   "property": "C86",
   "status": "partial",
   "theorems": [
    "Verif.Props.C86_index_asked_for_partial",
    "Verif.Props.C86_matrix_structure_refuted",
    "Verif.Props.C86_momentum_transfer"
   ],
   "note": "Proved for three of the four flag combinations; effective_medium_form without effective_medium_struct evaluates the structure factor in the effective index all the same (refuted)."
  },
  {
   "property": "C87",
   "status": "partial",
   "theorems": [
    "Verif.Props.C87_fine_roughness_adds",
    "Verif.Props.C87_fine_roughness_needs_matrix",
    "Verif.Props.C87_absorption_partial",
    "Verif.Props.C87_absorption_refuted"
   ],
   "note": "Fine roughness part proved. Absorption coefficient proved with effective_medium_form; refuted without it (bare matrix: absorbing particles in a clear matrix do not absorb)."
  },
  {
   "property": "C88",
   "status": "partial",
   "theorems": [
    "Verif.Props.C88_polydisperse_checks_partial",
    "Verif.Props.C88_missing_species_refuted"
   ],
   "note": "pdi and layer checks proved; a missing radius2 or concentration is never refused because both are given defaults before the check (refuted)."
  },
  {
   "property": "C89",
   "status": "proved",
   "theorems": [
    "Verif.Props.C89_total_cross_section",
    "Verif.Props.C89_binary_absorbing",
    "Verif.Props.C89_same_cross_sections",
    "Verif.Props.C89_absorbing_surface"
   ],
   "note": ""
  },
  {
   "property": "C90",
   "status": "proved",
   "theorems": [
    "Verif.Props.C90_slope_density",
    "Verif.Props.C90_slope_moments",
    "Verif.Props.C90_rough_enter",
    "Verif.Props.C90_flat_limit"
   ],
   "note": "The end of the slope grid is the double np.pi/2, modelled as any number below the mathematical value. Underflow of P_theta_a (the NaN branch for tiny positive roughness) is outside real arithmetic; the branch itself is modelled and reached at roughness 0."
  },
  {
   "property": "C91",
   "status": "proved",
   "theorems": [
    "Verif.Props.C91_radial_distribution",
    "Verif.Props.C91_dilute",
    "Verif.Props.C91_generic"
   ],
   "note": "Values between grid points depend on scipy's spline, which is a parameter assumed to pass through its data. Volume fractions excluded: 1 and at most 8192 values, none of them between 0 and 0.07."
  },
  {
   "property": "C92",
   "status": "partial",
   "theorems": [
    "Verif.Props.C92_transforms_refuted",
    "Verif.Props.C92_linear_partial"
   ],
   "note": "False of the code: the wavenumber step is 1/r_max instead of pi/r_max; a spike comes back with at most 2/pi of its height, for every grid (C92_transforms_refuted). Linearity holds."
  },
  {
   "property": "C93",
   "status": "proved",
   "theorems": [
    "Verif.Props.C93_field_phase",
    "Verif.Props.C93_negative_g"
   ],
   "note": "rng.choice is a parameter (draws); the spline is a parameter."
  },
  {
   "property": "C94",
   "status": "partial",
   "theorems": [
    "Verif.Props.C94_density_refuted"
   ],
   "note": "False of the code: rho is 3 phi/(4 pi), one eighth of the density radial_dist_py uses (C94_density_refuted); nothing weaker is worth keeping beyond proportionality, which is part of that theorem."
  },
  {
   "property": "C95",
   "status": "proved",
   "theorems": [
    "Verif.Props.C95_film_run_fractions",
    "Verif.Props.C95_film_run_lossless",
    "Verif.Props.C95_film_run_absorbing"
   ],
   "note": ""
  },
  {
   "property": "C96",
   "status": "proved",
   "theorems": [
    "Verif.Props.C96_absorption_decreases_RT",
    "Verif.Props.C96_film_run_absorption"
   ],
   "note": ""
  },
  {
   "property": "C97",
   "status": "proved",
   "theorems": [
    "Verif.Props.C97_film_units",
    "Verif.Props.C97_film_run_units"
   ],
   "note": ""
  },
  {
   "property": "C98",
   "status": "proved",
   "theorems": [
    "Verif.Props.C98_order_irrelevant",
    "Verif.Props.C98_sphere_order_irrelevant"
   ],
   "note": ""
  },
  {
   "property": "C99",
   "status": "proved",
   "theorems": [
    "Verif.Props.C99_after_exit_irrelevant",
    "Verif.Props.C99_goniometer_after_exit_irrelevant",
    "Verif.Props.C99_more_events",
    "Verif.Props.C99_sphere_after_exit_irrelevant"
   ],
   "note": ""
  },
  {
   "property": "C100",
   "status": "proved",
   "theorems": [
    "Verif.Props.C100_sphere_run_fractions",
    "Verif.Props.C100_sphere_per_traj",
    "Verif.Props.C100_sphere_run_lossless"
   ],
   "note": "complete smooth-sphere run incl. all re-run generations; start draw exactly 0 excluded (C37)"
  },
  {
   "property": "C101",
   "status": "proved",
   "theorems": [
    "Verif.Props.C101_film_estimator",
    "Verif.Props.C101_rough_film_estimator",
    "Verif.Props.C101_goniometer_estimator"
   ],
   "note": "smooth film, coarse roughness, goniometer; against SpecFilm.lean"
  },
  {
   "property": "C102",
   "status": "partial",
   "theorems": [
    "Verif.Props.C102_specular_detection_refuted",
    "Verif.Props.C102_specular_detection_partial"
   ],
   "note": "refuted for oblique incidence on a denser sample with detection angle < 90 deg; proved for normal incidence, equal indices, full hemisphere"
  },
  {
   "property": "C103",
   "status": "proved",
   "theorems": [
    "Verif.Props.C103_step_distribution",
    "Verif.Props.C103_unscattered_fraction"
   ],
   "note": ""
  },
  {
   "property": "C104",
   "status": "proved",
   "theorems": [
    "Verif.Props.C104_film_beam",
    "Verif.Props.C104_sphere_beam"
   ],
   "note": ""
  },
  {
   "property": "C105",
   "status": "proved",
   "theorems": [
    "Verif.Props.C105_angle_distribution",
    "Verif.Props.C105_joint_distribution"
   ],
   "note": ""
  },
  {
   "property": "C106",
   "status": "partial",
   "theorems": [
    "Verif.Props.C106_azimuth_unbiased_partial",
    "Verif.Props.C106_azimuth_grid_refuted"
   ],
   "note": "Proved for phase functions of theta (C106_azimuth_unbiased_partial); false for phase functions on a (theta, phi) grid (C106_azimuth_grid_refuted, for every grid size): the grid contains both 0 and 2 pi."
  },
  {
   "property": "C107",
   "status": "partial",
   "theorems": [
    "Verif.Props.C107_mean_direction_partial",
    "Verif.Props.C107_persistence_refuted"
   ],
   "note": "C107_mean_direction_partial: the mean direction after n events is (0,0,g^n). The second half is false of the code: C107_persistence_refuted gives the mean cosine of successive directions, g(1/3+2/3((3c-1)/2)^n), strictly nearer zero than g for every event after the first."
  },
  {
   "property": "C108",
   "status": "proved",
   "theorems": [
    "Verif.Props.C108_transport_length",
    "Verif.Props.C108_mean_position"
   ],
   "note": ""
  },
  {
   "property": "C109",
   "status": "proved",
   "theorems": [
    "Verif.Props.C109_sphere_estimator",
    "Verif.Props.C109_matched_sphere",
    "Verif.Props.C109_one_fate"
   ],
   "note": "Fate is decided by what exit_kz returns (C24 says when that is wrong); C109_matched_sphere removes this reference for an index-matched surface. Hypotheses on the bundle: starts on the surface pointing inwards, exit steps straight and below the 1e20 R replacement level."
  },
  {
   "property": "C110",
   "status": "partial",
   "theorems": [
    "Verif.Props.C110_absorbed_path_partial",
    "Verif.Props.C110_absorbed_path_refuted"
   ],
   "note": "inequality and the cases without absorption or with the step ending at the surface proved; equality refuted: absorption is applied to the whole last step"
  },
  {
   "property": "C111",
   "status": "partial",
   "theorems": [
    "Verif.Props.C111_ballistic_light_partial",
    "Verif.Props.C111_ballistic_light_refuted"
   ],
   "note": "probability proved; the mean weight refuted for absorbing samples (factor mu/(mu+mu_abs))"
  },
  {
   "property": "C112",
   "status": "proved",
   "theorems": [
    "Verif.Props.C112_ballistic_converges",
    "Verif.Props.C112_ballistic_error"
   ],
   "note": "almost sure convergence, mean and variance"
  },
  {
   "property": "C113",
   "status": "partial",
   "theorems": [
    "Verif.Props.C113_repeatable_partial",
    "Verif.Props.C113_repeatable_refuted"
   ],
   "note": "holds with exit positions, and for the coefficients; refuted with exit directions (refl_indices is overwritten)"
  },
  {
   "property": "C114",
   "status": "proved",
   "theorems": [
    "Verif.Props.C114_multiscale"
   ],
   "note": "sphere run, bulk parameters and film run composed"
  },
  {
   "property": "C115",
   "status": "partial",
   "theorems": [
    "Verif.Props.C115_phi_dependent_refuted"
   ],
   "note": "refuted: every call raises"
  },
  {
   "property": "C116",
   "status": "proved",
   "theorems": [
    "Verif.Props.C116_circular_convolution",
    "Verif.Props.C116_nothing_discarded",
    "Verif.Props.C116_commutative",
    "Verif.Props.C116_total",
    "Verif.Props.C116_nonneg",
    "Verif.Props.C116_shapes",
    "Verif.Props.C116_length_one"
   ],
   "note": "Exact circular convolution; exact arithmetic."
  },
  {
   "property": "C117",
   "status": "partial",
   "theorems": [
    "Verif.Props.C117_dispatch_partial",
    "Verif.Props.C117_unknown_form_refuted",
    "Verif.Props.C117_poly_bounds_partial",
    "Verif.Props.C117_poly_average_refuted"
   ],
   "note": "Refuted in two respects: polydisperse systems use the internal size parameter of the mean diameter for every diameter; unknown form types give 0 or UnboundLocalError. Bounds and dispatch proved."
  },
  {
   "property": "C118",
   "status": "proved",
   "theorems": [
    "Verif.Props.C118_direction_law",
    "Verif.Props.C118_direction_law_joint"
   ],
   "note": "Equality of laws of the whole row of directions at each event."
  },
  {
   "property": "C119",
   "status": "partial",
   "theorems": [
    "Verif.Props.C119_calc_tir_phase_refuted",
    "Verif.Props.C119_phase_event_input_refuted",
    "Verif.Props.C119_phase_intensity_partial"
   ],
   "note": "Refuted: both functions raise AttributeError for every input. What the formula would give is characterised."
  },
  {
   "property": "C120",
   "status": "partial",
   "theorems": [
    "Verif.Props.C120_leaving_normal_partial",
    "Verif.Props.C120_entering_normal_partial",
    "Verif.Props.C120_normal_refuted",
    "Verif.Props.C120_leaving_range",
    "Verif.Props.C120_entering_range",
    "Verif.Props.C120_metal_refuted",
    "Verif.Props.C120_real_indices"
   ],
   "note": "Refuted for light entering an absorbing sample; exact for leaving, fractions for Im n <= Re n, real indices as C05."
  },
  {
   "property": "C121",
   "status": "partial",
   "theorems": [
    "Verif.Props.C121_models_agree_partial",
    "Verif.Props.C121_second_species_refuted"
   ],
   "note": "Refuted for a sample of the second species only with two different radii; proved otherwise."
  },
  {
   "property": "C122",
   "status": "proved",
   "theorems": [
    "Verif.Props.C122_absorbing_film"
   ],
   "note": "pymie's integral is a parameter assumed to be a non-negative quadrature."
  },
  {
   "property": "C123",
   "status": "partial",
   "theorems": [
    "Verif.Props.C123_normalised_event",
    "Verif.Props.C123_survival",
    "Verif.Props.C123_sum_of_events",
    "Verif.Props.C123_sum_norm_refuted",
    "Verif.Props.C123_sum_norm_single_partial",
    "Verif.Props.C123_negative_event_refuted",
    "Verif.Props.C123_distribution",
    "Verif.Props.C123_when_drawn"
   ],
   "note": "Proved: every normalised event plot is a fraction in [0,1], survival product, summed plot = total, distribution plot. Refuted: the summed normalised plot exceeds 1; negative events are not normalised."
  },
  {
   "property": "C124",
   "status": "partial",
   "theorems": [
    "Verif.Props.C124_distinct_saves_partial",
    "Verif.Props.C124_session_partial",
    "Verif.Props.C124_overwrite_refuted",
    "Verif.Props.C124_plain_number_refuted"
   ],
   "note": "Proved for all sessions: data survive unless a later call shows the same names, counts and magnitudes. Refuted: units and wavelength values are not in the name, underscores are ambiguous, plain numbers raise AttributeError."
  },
  {
   "property": "C125",
   "status": "partial",
   "theorems": [
    "Verif.Props.C125_squared_displacement_partial",
    "Verif.Props.C125_displacement_refuted",
    "Verif.Props.C125_diffusion_refuted"
   ],
   "note": "The exact mean squared displacement of the code's walk is proved for every phase function, coefficient and number of events; it differs from the textbook value (refuted for g > 0 and at least three events, and in the diffusion limit)."
  },
  {
   "property": "C126",
   "status": "partial",
   "theorems": [
    "Verif.Props.C126_uniform_azimuth_partial",
    "Verif.Props.C126_first_event_refuted",
    "Verif.Props.C126_azimuth_refuted"
   ],
   "note": "Proved for the default azimuth of incidence (uniform over the circle): all inclinations at any one event have jointly the distribution of own-frame scattering. Refuted for light from one azimuth: the code's inclination after the first event ignores the sampled azimuth; right-angle scattering sends all or none of the light back depending on the azimuth of incidence."
  },
  {
   "property": "C127",
   "status": "proved",
   "theorems": [
    "Verif.Props.C127_light_leaves",
    "Verif.Props.C127_warning_disappears"
   ],
   "note": "Film: exponential bound for the probability that a photon is still inside after nev+1 events, with constants that depend only on the film, the scattering coefficient and the phase function; the probability of the stuck warning tends to 0. For spheres the corresponding statement is false of the code because of C84 (light totally reflected at its first exit stays stuck)."
  },
  {
   "property": "C128",
   "status": "proved",
   "theorems": [
    "Verif.Props.C128_more_events",
    "Verif.Props.C128_result_settles"
   ],
   "note": "without a goniometer; the second part assumes the medium is not denser than the sample, as C127 does"
  },
  {
   "property": "C129",
   "status": "proved",
   "theorems": [
    "Verif.Props.C129_fine_grid"
   ],
   "note": "Transparent samples (real indices). The finite-thickness factor is the code's own, including the albedo (C56 discusses it)."
  },
  {
   "property": "C130",
   "status": "proved",
   "theorems": [
    "Verif.Props.C130_fine_grid"
   ],
   "note": "Grid angles from the smallest angle to pi; the normalisation of the phase function may depend on the grid, as calc_scat's does."
  },
  {
   "property": "C131",
   "status": "proved",
   "theorems": [
    "Verif.Props.C131_transport_length"
   ],
   "note": "Limits in both orders named in the statement: first the grid, then the number of steps."
  },
  {
   "property": "C132",
   "status": "partial",
   "theorems": [
    "Verif.Props.C132_diam_list_refuted",
    "Verif.Props.C132_equal_spacing_partial",
    "Verif.Props.C132_sample_diams_partial"
   ],
   "note": "Refuted for calc_diam_list with its default spacing: the search starts at the number 1 in whatever unit. The equally spaced list and the sampling are unit-free."
  },
  {
   "property": "C133",
   "status": "partial",
   "theorems": [
    "Verif.Props.C133_reflection_units",
    "Verif.Props.C133_calc_scat_units",
    "Verif.Props.C133_polydisperse_partial",
    "Verif.Props.C133_polydisperse_refuted"
   ],
   "note": "Refuted for polydisperse_form_factor with a polydispersity index above 1/3 (smallest diameter 1e-6 in whatever unit); proved up to 1/3, and for reflection and calc_scat given unit-free differential cross sections."
  },
  {
   "property": "C134",
   "status": "partial",
   "theorems": [
    "Verif.Props.C134_exit_side_refuted",
    "Verif.Props.C134_reflectance_refuted",
    "Verif.Props.C134_matched_sphere_partial"
   ],
   "note": "proved for an index-matched surface; refuted for refracting surfaces: the side of exit and the reflectance depend on the unit of length (unnormalised rotation axis)"
  },
  {
   "property": "C135",
   "status": "partial",
   "theorems": [
    "Verif.Props.C135_incoherent_partial",
    "Verif.Props.C135_coherent_refuted"
   ],
   "note": "proved for the moduli of the fields and the incoherent reflectance; refuted for the coherent reflectance (phase k^2 L)"
  },
  {
   "property": "C136",
   "status": "partial",
   "theorems": [
    "Verif.Props.C136_tables_match_grades_partial",
    "Verif.Props.C136_returned_index_partial",
    "Verif.Props.C136_nominal_index_refuted"
   ],
   "note": "Refuted as stated (third Cauchy term discarded): proved that the tables with all three coefficients match the grades, and by how much the returned values differ."
  },
  {
   "property": "C137",
   "status": "proved",
   "theorems": [
    "Verif.Props.C137_converges",
    "Verif.Props.C137_limit_fractions",
    "Verif.Props.C137_absorbing_known"
   ],
   "note": "Smooth films without goniometer, any beam, phase function, absorption and plates; limit formula in SpecLimit.lean. C137_absorbing_known shows the condition meanKnown != 0 for absorbing films."
  },
  {
   "property": "C138",
   "status": "partial",
   "theorems": [
    "Verif.Props.C138_fewer_photons_read_less",
    "Verif.Props.C138_reads_less_than_all",
    "Verif.Props.C138_no_photon_no_reading",
    "Verif.Props.C138_point_detector",
    "Verif.Props.C138_transmittance_refuted"
   ],
   "note": "C138_fewer_photons_read_less, C138_reads_less_than_all, C138_no_photon_no_reading and C138_point_detector prove the claims about the reflectance for every run that does not give NaN; that the transmittance does not depend on the detector is false of the code (C138_transmittance_refuted)."
  },
  {
   "property": "C139",
   "status": "partial",
   "theorems": [
    "Verif.Props.C139_square_detector_partial",
    "Verif.Props.C139_centre_ray_refuted",
    "Verif.Props.C139_on_normal_partial",
    "Verif.Props.C139_corner_refuted"
   ],
   "note": "proved for rays in the plane of the detector when the whole detector is on the reflection side (C139_square_detector_partial) and, one way, for detectors on the normal (C139_on_normal_partial); the full claim is false of the code (C139_centre_ray_refuted, C139_corner_refuted)."
  },
  {
   "property": "C140",
   "status": "partial",
   "theorems": [
    "Verif.Props.C140_polar_plot_partial",
    "Verif.Props.C140_heatmap_refuted",
    "Verif.Props.C140_heatmap_partial",
    "Verif.Props.C140_dist_plot_partial",
    "Verif.Props.C140_plot_without_exits_refuted",
    "Verif.Props.C140_exit_point_partial",
    "Verif.Props.C140_exit_azimuth_refuted"
   ],
   "note": "the curve over theta and plot_dist_1d are normalised (C140_polar_plot_partial, C140_dist_plot_partial), the map is for decreasing nu (C140_heatmap_partial) and the polar angle of exits is right (C140_exit_point_partial); false of the code: the map for increasing nu (C140_heatmap_refuted), plot=True without exits (C140_plot_without_exits_refuted), azimuths (C140_exit_azimuth_refuted)."
  },
  {
   "property": "C141",
   "status": "proved",
   "theorems": [
    "Verif.Props.C141_photon_settles",
    "Verif.Props.C141_trajectories_then_events",
    "Verif.Props.C141_events_then_trajectories",
    "Verif.Props.C141_limit_values",
    "Verif.Props.C141_known_grows",
    "Verif.Props.C141_mean_events"
   ],
   "note": "C141_photon_settles, C141_trajectories_then_events, C141_events_then_trajectories, C141_limit_values, C141_known_grows, C141_mean_events."
  },
  {
   "property": "C142",
   "status": "partial",
   "theorems": [
    "Verif.Props.C142_counted_at_plane_partial",
    "Verif.Props.C142_no_photon_no_reading",
    "Verif.Props.C142_point_detector",
    "Verif.Props.C142_error_refuted",
    "Verif.Props.C142_transmittance_refuted",
    "Verif.Props.C142_direction_refuted",
    "Verif.Props.C142_rerun_reads_refuted"
   ],
   "note": "C142_counted_at_plane_partial, C142_no_photon_no_reading, C142_point_detector proved; C142_direction_refuted (refraction at z=0 instead of the sphere), C142_transmittance_refuted (shift_traj_tir turns paths upside down before angles are computed: T changes), C142_error_refuted (ValueError from an obtuse exit angle), C142_rerun_reads_refuted (specular and nested reflection are counted when light is re-run)."
  },
  {
   "property": "C143",
   "status": "proved",
   "theorems": [
    "Verif.Props.C143_error_bound",
    "Verif.Props.C143_enough_trajectories"
   ],
   "note": "Non-asymptotic version of C137: explicit probability and error."
  },
  {
   "property": "C144",
   "status": "partial",
   "theorems": [
    "Verif.Props.C144_sphere_photons",
    "Verif.Props.C144_sphere_batches",
    "Verif.Props.C144_film_batches_partial",
    "Verif.Props.C144_film_batches_refuted"
   ],
   "note": "True for spheres seen over the full hemispheres, without re-runs or with re-runs forced (max_stuck < 0); refuted for films (two photons), where the difference is bounded by the light sent back at the faces."
  },
  {
   "property": "C145",
   "status": "proved",
   "theorems": [
    "Verif.Props.C145_sphere_statistics"
   ],
   "note": "For runs without re-runs or with re-runs forced (max_stuck < 0), where C144 makes the photons independent; detectors covering the hemispheres; no fine roughness together with Mie steps."
  },
  {
   "property": "C146",
   "status": "partial",
   "theorems": [
    "Verif.Props.C146_lossless_settles_partial",
    "Verif.Props.C146_light_leaves",
    "Verif.Props.C146_absorbing_refuted"
   ],
   "note": "Proved for spheres without absorption (C146_lossless_settles_partial; all random numbers, all treatments of the light sent back) and, for all spheres, the bound on the probability that a photon has not left (C146_light_leaves). Refuted with absorption: totally reflected light gets the weight of the last simulated event (C146_absorbing_refuted)."
  },
  {
   "property": "C147",
   "status": "partial",
   "theorems": [
    "Verif.Props.C147_sphere_absorption_partial",
    "Verif.Props.C147_threshold_refuted"
   ],
   "note": "Proved for detectors that see the whole hemispheres and runs without re-runs or with re-runs forced (max_stuck < 0). Refuted for re-runs that stop at max_stuck, the default (C147_threshold_refuted)."
  },
  {
   "property": "C148",
   "status": "proved",
   "theorems": [
    "Verif.Props.C148_thicker_film",
    "Verif.Props.C148_denser_film"
   ],
   "note": "Detector over the hemispheres, no goniometer, no roughness. For films whose index differs from the surroundings the claim fails path by path: light sent back at a face is shared out according to the fates of the other photons (C144)."
  },
  {
   "property": "C149",
   "status": "partial",
   "theorems": [
    "Verif.Props.C149_clear_film_partial",
    "Verif.Props.C149_absorbing_clear_film_refuted",
    "Verif.Props.C149_clear_film_refuted"
   ],
   "note": "Proved without absorption up to the square of the surface reflectance (C149_clear_film_partial, with R = 1 - T exactly). Refuted as an equality (index 3/2, normal incidence: off by more than 0.001) and, badly, with absorption: T goes to 0."
  },
  {
   "property": "C150",
   "status": "proved",
   "theorems": [
    "Verif.Props.C150_place",
    "Verif.Props.C150_mirror"
   ],
   "note": "Equality of the results, exceptions and nan included, with no hypotheses on the arguments. A goniometer sits at a finite distance, so place matters there by design."
  },
  {
   "property": "C151",
   "status": "partial",
   "theorems": [
    "Verif.Props.C151_haze_partial",
    "Verif.Props.C151_haze_refuted"
   ],
   "note": "Proved: on every complete run with a positive transmittance calc_haze returns a fraction, the haze for the larger cutoff outside given by Snell's law (so never more than the haze, equal for matched indices). Refuted otherwise: the angle inside the film is used."
  },
  {
   "property": "C152",
   "status": "partial",
   "theorems": [
    "Verif.Props.C152_reflectance_fraction_partial",
    "Verif.Props.C152_polarised_refuted",
    "Verif.Props.C152_oblique_refuted"
   ],
   "note": "Proved: the limit is not negative, at most 1 plus half the difference of the two Fresnel reflectances of the surface, hence at most 1 at normal incidence or for equal indices. Refuted for one polarisation and for the average at oblique incidence."
  },
  {
   "property": "C153",
   "status": "partial",
   "theorems": [
    "Verif.Props.C153_invisible_partial",
    "Verif.Props.C153_absorbing_refuted"
   ],
   "note": "Proved without absorption (R = 1 - T, T within 2e-9 of 1, the code's regularisation). Refuted with absorption."
  },
  {
   "property": "C154",
   "status": "proved",
   "theorems": [
    "Verif.Props.C154_transparent_film"
   ],
   "note": "For every sample whose index has no imaginary part. The differential cross section and Mie's absorption cross section are parameters."
  },
  {
   "property": "C155",
   "status": "partial",
   "theorems": [
    "Verif.Props.C155_plot_coord_partial",
    "Verif.Props.C155_number_refuted"
   ],
   "note": "Proved: what is drawn are the positions after each step, and the clouds are those of the first ntraj trajectories in distinct colours. Refuted: the panels ignore ntraj."
  },
  {
   "property": "C156",
   "status": "proved",
   "theorems": [
    "Verif.Props.C156_own_generator",
    "Verif.Props.C156_film_reproducible",
    "Verif.Props.C156_any_order",
    "Verif.Props.C156_film_numbers",
    "Verif.Props.C156_groups_disjoint",
    "Verif.Props.C156_seeded_error",
    "Verif.Props.C156_seeded_enough"
   ],
   "note": "Runs without initial fields and with a phase function of theta. The generator's numbers themselves are an arbitrary stream; for the error, independent uniform numbers."
  },
  {
   "property": "C157",
   "status": "proved",
   "theorems": [
    "Verif.Props.C157_independent_runs",
    "Verif.Props.C157_standard_error",
    "Verif.Props.C157_average_settles",
    "Verif.Props.C157_error_bars"
   ],
   "note": "Smooth films without goniometer and without given angles, phase function of theta. A run in which no light has a known final state (NaN) counts as 0."
  },
  {
   "property": "C158",
   "status": "proved",
   "theorems": [
    "Verif.Props.C158_own_generator",
    "Verif.Props.C158_sphere_numbers",
    "Verif.Props.C158_places",
    "Verif.Props.C158_seeded_error",
    "Verif.Props.C158_reads_no_further"
   ],
   "note": "One-dimensional phase functions, smooth spheres (coarse roughness is refused for spheres); the count of numbers drawn depends on the data, because it depends on how often light is run again. If rng is not passed to calc_refl_trans, the re-runs draw from the module's generator (givenRerun in the model); the theorems are about runs in which both get the same."
  },
  {
   "property": "C159",
   "status": "proved",
   "theorems": [
    "Verif.Props.C159_numbers_taken",
    "Verif.Props.C159_independent_runs",
    "Verif.Props.C159_standard_error",
    "Verif.Props.C159_average_settles",
    "Verif.Props.C159_error_bars"
   ],
   "note": "The numbers are strictly between 0 and 1 (numpy can deliver 0, with probability 2^-53). One-dimensional phase functions; the fine roughness of the sampled steps 0 or no Mie step."
  },
  {
   "property": "C160",
   "status": "partial",
   "theorems": [
    "Verif.Props.C160_angle_table_partial",
    "Verif.Props.C160_last_event_refuted",
    "Verif.Props.C160_sampled_angles_refuted",
    "Verif.Props.C160_angle_not_used_refuted",
    "Verif.Props.C160_last_turn"
   ],
   "note": "Proved: the layout of the table, for arrays with a row for each event, and which angle the last turn was. Refuted: the angles listed (off by two events), the last event, and the angles of sample_angles, which have one row less."
  },
  {
   "property": "C161",
   "status": "partial",
   "theorems": [
    "Verif.Props.C161_incoherent",
    "Verif.Props.C161_incoherent_polarised",
    "Verif.Props.C161_average_settles",
    "Verif.Props.C161_mean_reflectance",
    "Verif.Props.C161_co_cross",
    "Verif.Props.C161_polarisers",
    "Verif.Props.C161_coherent",
    "Verif.Props.C161_coherent_unpolarised_refuted"
   ],
   "note": "Proved for coherent=False, polarised and unpolarised. Refuted: unpolarised light with coherent=True, which is linearly polarised at 45 degrees."
  }
 ]
}