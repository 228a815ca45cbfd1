#!/usr/bin/env python3
"""Writes /verif/properties.jsonl.  Kept as a script only so the long strings stay reviewable."""
import json, os
P = []
def p(id, title, statement, quantifier, why, anchors):
    P.append(dict(id=id, title=title, statement=statement, quantifier=quantifier,
                  why_tests_cant=why, anchors=anchors))
D = "structcol/detector.py"; M = "structcol/montecarlo.py"; MO = "structcol/model.py"
I = "structcol/__init__.py"; R = "structcol/refractive_index.py"; S = "structcol/structure.py"
E = "structcol/event_distribution.py"; PP = "structcol/detector_polarization_phase.py"
PS = "structcol/phase_func_sphere.py"
ALLREAL = "The claim ranges over a continuum of real inputs; a finite set of test points cannot settle it, least of all at the boundary values where branches switch."
ALLN = "The claim ranges over every array size and content; tests fix a handful of shapes and seeds."
RNG = "The claim must hold for every stream the random generator could deliver; a test sees one seed."
HIST = "The claim is about every history of scattering events and every batch of trajectories, of any length; a seeded simulation explores a vanishing fraction of them."

# ---- package root -------------------------------------------------------------
p("C01", "refraction obeys Snell's law and signals total internal reflection by NaN",
  "For positive refractive indices, refraction(angles, n_before, n_after) returns at each position either an angle in [-pi/2, pi/2] whose sine times n_after equals n_before times the sine of the input angle, or NaN, and it returns NaN exactly when no such angle exists (n_before*|sin(angle)| > n_after).",
  "every array of real angles, every pair of positive indices", ALLREAL, [I+":refraction"])
p("C02", "refraction is reversible",
  "Refracting an angle in [-pi/2, pi/2] from medium 1 to medium 2 and, when that is not NaN, refracting the result back from 2 to 1 returns the original angle; refraction into an equal index changes nothing; refraction is odd and strictly increasing where defined.",
  "every angle in [-pi/2, pi/2], every pair of positive indices", ALLREAL, [I+":refraction"])
p("C03", "normalize returns a unit vector in the same direction, column by column",
  "normalize(x, y, z) returns at each position a positive multiple of the input vector with norm 1 when the input vector is not zero; for the zero vector it returns NaN in all components with return_nan=True and the zero vector with return_nan=False; the result for one column never depends on the other columns.",
  "every batch size, every real vector, including batches mixing zero and non-zero vectors", ALLN, [I+":normalize"])
p("C04", "select_events picks, for each trajectory, the value at its own event and zero when there is none",
  "For a (nevents, ntraj) array and event numbers between 0 and nevents, select_events returns an array of length ntraj whose j-th entry is the array's value for event events[j] (event e is stored in row e-1) of trajectory j when events[j] > 0 and 0 otherwise; the 3D form does the same for each coordinate; an event number above nevents is an IndexError, never a silently wrong value.",
  "every array shape, every array content, every event array", ALLN, [I+":select_events"])
# ---- Fresnel ----------------------------------------------------------------------
p("C05", "Fresnel reflectances and transmittances are fractions that add up to one",
  "For positive real indices and incidence angles in [0, pi/2], both polarisations returned by fresnel_reflection and fresnel_transmission lie in [0, 1], and reflection plus transmission is 1 for each polarisation.",
  "every pair of positive indices, every angle in [0, pi/2]", ALLREAL, [MO+":fresnel_reflection", MO+":fresnel_transmission"])
p("C06", "total internal reflection is total and occurs exactly beyond the critical angle; angles above 90 degrees are rejected",
  "fresnel_reflection raises ValueError when any angle exceeds pi/2 and not otherwise; below that, both polarisations are 1 whenever n2 < n1 and n1*sin(angle) >= n2, and if n1*sin(angle) < n2 and angle < pi/2 both are strictly below 1.",
  "every array of angles in [0, infinity), every pair of positive indices", ALLREAL, [MO+":fresnel_reflection"])
p("C07", "Fresnel special cases: index matching, normal incidence, Brewster angle, grazing incidence, reciprocity",
  "Equal indices give zero reflection at every angle below pi/2; at normal incidence both polarisations reflect ((n1-n2)/(n1+n2))^2; the parallel polarisation vanishes exactly at tan(angle)=n2/n1; at grazing incidence everything is reflected when the indices differ; and the reflectance from 1 to 2 at an angle equals that from 2 to 1 at the refracted angle.",
  "every pair of positive indices, every angle in [0, pi/2)", ALLREAL, [MO+":fresnel_reflection", I+":refraction"])
p("C08", "the two-interface pass fraction is a fraction, vanishes on total internal reflection, and does not depend on direction of traversal",
  "fresnel_pass_frac returns for each trajectory a value in [0, 1]; it is 0 when the ray is totally internally reflected at either interface; with one interface (n_inside=None) it is the mean Fresnel transmittance up to the 1e-9 regulariser; and it differs from the exact sum of the infinite internal reflection series T1*T2*(1+R1R2+(R1R2)^2+...) by at most the regulariser's effect.",
  "every triple of positive indices and every incidence angle in [0, pi/2]", ALLREAL, [D+":fresnel_pass_frac"])
# ---- detector: exits ----------------------------------------------------------------
p("C09", "every trajectory has exactly one outcome",
  "For every table of exit flags in which no event is flagged in both directions, exactly one of the reflected, transmitted and stuck event numbers returned by find_event_indices is non-zero for each trajectory; the stuck number, when non-zero, is the number of events.",
  "every number of events >= 1, every number of trajectories, every exit table", HIST, [D+":find_event_indices"])
p("C10", "the reported exit is the first exit",
  "The reflected (transmitted) event number is the first event flagged as an exit in that direction, no event before it is flagged in either direction, and a trajectory is stuck only if it never exits; the tir event number is the first tir event, or 0 if none.",
  "every exit table of any size", HIST, [D+":find_event_indices"])
p("C11", "film exits: unfolded crossings are attributed to the physical face that was crossed",
  "In a film of positive thickness, a trajectory whose vertical position is unfolded through the faces (periodic images) is flagged with an exit only at an event at which it leaves its current copy of the film; if it leaves upward from an even copy or downward from an odd copy the exit is transmission, otherwise reflection; a trajectory that starts inside the film and leaves through z > thickness is never flagged reflected and one that leaves through z < 0 never transmitted.",
  "every film thickness, every vertical path of any length, every direction history", HIST, [D+":find_valid_exits"])
p("C12", "film exits: the flags are exclusive and an exit needs a direction inside the critical cone",
  "For n_medium <= n_sample no event is flagged both as exit and as total internal reflection, nor as exit in both directions; every exit flag occurs at an event whose direction satisfies n_sample*sin(angle) < n_medium, and every tir flag at one where n_sample*sin(angle) >= n_medium.",
  "every pair of indices with n_medium <= n_sample, all positions and directions", HIST, [D+":find_valid_exits"])
p("C13", "light can leave a film into a medium of higher index",
  "If n_medium > n_sample there is no total internal reflection inside the sample, so an event at which the trajectory crosses a face must be flagged as an exit.",
  "every pair of indices with n_medium > n_sample", ALLREAL, [D+":find_valid_exits"])
# ---- detector: weights -----------------------------------------------------------------
p("C14", "outcome weights conserve the incident energy",
  "For every trajectory the reflected, transmitted, stuck and absorbed weights returned by calc_outcome_weights add up to the incident fraction; all four are non-negative when weights lie in [0,1] and outcomes are exclusive; the absorbed weight is zero when nothing is absorbed; a warning is given exactly if at least a fifth of the entering light is stuck.",
  "every batch, every weight history with values in [0,1], every index array produced by find_event_indices", HIST, [D+":calc_outcome_weights"])
p("C15", "film reflectance and transmittance are fractions whose sum does not exceed one",
  "calc_refl_trans for a film returns reflectance >= 0, transmittance >= 0 and reflectance + transmittance <= 1, for every detection angle.",
  "every batch of trajectories with non-increasing weights in [0,1], every indices, every detection angle in [0, pi/2]; at least one outcome known", HIST, [D+":calc_refl_trans", D+":fresnel_correct_exit", D+":detect_corrected_traj", D+":distribute_ambig_traj_weights"])
p("C16", "no light is lost: R + T = 1 for a lossless film and R + T = 1 - A in general",
  "With a full-hemisphere detection angle (pi/2), and no goniometer detector, reflectance plus transmittance computed for a film equals one when no trajectory weight is absorbed, and in general equals one minus the absorbed fraction corrected for internally reflected light.",
  "every batch of trajectories, all indices", HIST, [D+":calc_refl_trans"])
p("C17", "reflectance and transmittance grow with the detection angle",
  "For the same trajectories, enlarging the detection angle never decreases the reflectance or the transmittance.",
  "every batch, every pair of detection angles", HIST, [D+":detect_correct", D+":detect_corrected_traj", D+":distribute_ambig_traj_weights"])
p("C18", "film results are numbers",
  "calc_refl_trans returns finite reflectance and transmittance for every batch of trajectories with finite weights.",
  "every batch, including batches in which every trajectory is stuck", HIST, [D+":fresnel_correct_exit"])
p("C19", "re-running internally reflected light terminates and respects max_call_depth",
  "With run_fresnel_traj=True, calc_refl_trans terminates, making at most max_call_depth nested re-runs, and stops as soon as the undecided weight is at most max_stuck.",
  "every random stream, every batch, every max_call_depth and max_stuck", RNG, [D+":calc_refl_trans", D+":run_sphere_fresnel_traj"])
p("C20", "re-running internally reflected light conserves energy",
  "Reflectance plus transmittance accumulated over all recursive re-runs is at most one for a sphere, whatever directions and steps are drawn, and each re-run adds at most the weight that was undecided.",
  "every random stream, every recursion depth", RNG, [D+":calc_refl_trans", D+":run_sphere_fresnel_traj"])
# ---- geometry -------------------------------------------------------------------
p("C21", "the sphere exit point lies on the sphere, on the trajectory segment",
  "For a start point inside the sphere and an end point outside, find_vec_sphere_intersect returns a point at distance radius from the centre, on the segment between the two points; when the line misses the sphere it returns the zero vector.",
  "every radius > 0, every pair of points inside/outside", ALLREAL, [D+":find_vec_sphere_intersect"])
p("C22", "internal reflection is a mirror reflection",
  "rotate_reflect about a unit normal preserves the length, reverses the normal component, keeps the tangential component, and applied twice is the identity.",
  "every direction and unit normal", ALLREAL, [D+":rotate_reflect"])
p("C23", "rotate_refract is a rotation about the given axis",
  "For a unit axis, rotate_refract preserves lengths and the component along the axis, does not depend on the anchor point, composes additively in the angle, and turns a vector perpendicular to the axis by exactly the angle.",
  "every unit axis, anchor, vector and angle", ALLREAL, [D+":rotate_refract"])
p("C24", "the direction leaving a spherical boundary obeys Snell's law",
  "exit_kz gives the z-component of the unit direction refracted at the sphere surface: in the plane of incidence and at the Snell angle to the outward normal.",
  "every exit point and direction, every pair of indices without total internal reflection", ALLREAL, [D+":exit_kz", D+":rotate_refract"])
p("C25", "the direction leaving a film toward a detector obeys Snell's law",
  "calc_refracted_direction returns a unit vector pointing toward -z whose tangential part is parallel to the incoming one and scaled by n1/n2, for every non-normal direction below the critical angle.",
  "every unit direction with |kz|<1, every pair of indices without total internal reflection", ALLREAL, [D+":calc_refracted_direction"])
p("C26", "goniometer detection only removes trajectories",
  "calc_indices_detected returns for each trajectory either its exit event or 0; a kept trajectory's refracted ray meets the detection hemisphere strictly inside the detector's square on the reflection side; for a photon leaving at the centre of the detection hemisphere, a detector on the surface normal that detects it still detects it when its side is enlarged.",
  "every batch and every detector geometry", ALLN, [D+":calc_indices_detected"])
p("C27", "angles to a film normal do not depend on the side of exit",
  "For a film, get_angles returns an angle in [0, pi/2] that depends only on |kz| and whose cosine is |kz|; a trajectory with no event gets pi/2.",
  "every kz in [-1,1], every batch", ALLREAL, [D+":get_angles"])
p("C28", "haze is a fraction",
  "calc_haze returns a value in [0,1] for non-negative per-trajectory transmittances that sum to a positive transmittance, is non-increasing in the cutoff angle, is 0 if everything leaves below the cutoff and 1 if nothing does.",
  "every batch, every cutoff angle", ALLN, [D+":calc_haze"])
p("C29", "goniometer renormalisation is linear and unit free",
  "normalize_refl_goniometer is linear in the reflectance, invariant when distance and side are scaled together, and returns the reflectance itself for a detector whose projected area equals the hemisphere's.",
  "all real inputs with positive lengths", ALLREAL, [D+":normalize_refl_goniometer"])
p("C30", "calculating reflectance does not alter the caller's trajectories",
  "calc_refl_trans never modifies the position, direction or weight of the Trajectory object passed in, even in goniometer mode, where positions and directions are flipped internally.",
  "every call, every aliasing of the arrays", HIST, [D+":set_up_values", D+":shift_traj_tir", D+":calc_refl_trans"])
# ---- monte carlo ---------------------------------------------------------------
p("C31", "absorption: weights decay with path length and never grow",
  "After absorb, the weight of event i is the initial weight times exp(-mu_abs * path length up to event i); weights stay in [0,1] if they started there, never increase along a trajectory, are unchanged when mu_abs is 0, and absorbing with two coefficients in turn equals absorbing with their sum.",
  "every step history of non-negative steps, every mu_abs >= 0", HIST, [M+":Trajectory.absorb"])
p("C32", "scattering keeps directions unit vectors and turns them by exactly the sampled angle",
  "After scatter every direction has norm 1 if the initial one has and the supplied sines/cosines are consistent; the cosine of the angle between consecutive directions is the supplied costheta; the first direction is unchanged; calling scatter again with the same angles changes nothing.",
  "every number of events, every angle history, including directions along the z axis", HIST, [M+":Trajectory.scatter"])
p("C33", "move advances each photon by its step along its direction",
  "After move, consecutive positions differ by the step times the direction, so distances equal the steps for unit directions, the first position is unchanged, every position is at most the path length away from the first, and repeating move with the same steps changes nothing.",
  "every number of events, every step and direction history", HIST, [M+":Trajectory.move"])
p("C34", "sampled steps are valid path lengths",
  "sample_step returns finite non-negative steps for every random draw in [0,1) and positive mu_scat, longer for larger draws and shorter for larger mu_scat, raises ValueError exactly when fine_roughness is outside [0,1], and roughness changes only the first step of the first round(ntraj*fine_roughness) trajectories.",
  "every random stream, every mu, every batch shape", RNG, [M+":sample_step"])
p("C35", "sampled scattering angles come from the grid with consistent sines and cosines",
  "sample_angles returns nevents-1 angles per trajectory; every theta is one of the tabulated angles in [min_angle, pi], every phi lies in [0, 2*pi) (or on the phi grid up to 2*pi for a two-dimensional phase function), the returned sines and cosines belong to those angles, and the sampling weights used are non-negative and sum to 1.",
  "every random stream, every non-negative phase function with positive weight", RNG, [M+":sample_angles"])
p("C36", "initial photons for a film are unit vectors inside the illumination spot, pointing into the sample and refracted by Snell's law",
  "initialize with boundary='film' starts every photon at z=0 inside the requested square spot, with weight 1 and a unit direction with kz >= 0; the transverse direction is n_medium/n_sample times the incident one.",
  "every random stream, every incidence range in [0, pi/2], every pair of indices without total internal reflection", RNG, [M+":initialize"])
p("C37", "initial photons for a sphere start on its illuminated surface and are refracted by Snell's law at the local normal",
  "initialize with boundary='sphere' starts every photon on the surface of the sphere, on the lower (illuminated) hemisphere, with a unit direction whose angle to the inward normal obeys Snell's law.",
  "every random stream, every sphere diameter, every pair of indices", RNG, [M+":initialize"])
p("C38", "initialize validates its geometry arguments",
  "initialize raises ValueError when boundary='sphere' without a sample diameter, when boundary='film' with one, when for a film user-supplied angle arrays have the wrong length, or when coarse roughness is requested for a sphere; for those two boundaries it succeeds in all other cases, and every other boundary name is an error.",
  "all combinations of the geometry arguments", ALLN, [M+":initialize"])
p("C39", "scattering coefficients are non-negative and scale with number density",
  "calc_scat's number density for one species is volume_fraction / particle volume, for two species the concentrations weight the volumes (volume fractions of the species add up to the total), for any admissible concentrations including exactly [1,0]; mu_scat is non-negative for non-negative cross sections and proportional to the density.",
  "every volume fraction in [0,1], radii > 0, concentrations summing to 1", ALLREAL, [M+":calc_scat"])
p("C40", "the phase function is a probability distribution",
  "phase_function returns non-negative values that sum to 1 whenever the differential cross sections are non-negative and not all zero.",
  "every grid of angles, every non-negative cross section", ALLN, [M+":phase_function"])
p("C41", "coarse roughness: entering directions are unit vectors refracted at the local facet",
  "coarse_roughness_enter returns unit directions inside the sample at the Snell angle from the local facet normal and inside the plane of incidence; it rejects the sphere boundary.",
  "every facet angle and azimuth, every incident direction, every pair of indices", RNG, [M+":coarse_roughness_enter"])
p("C42", "polarised fields stay normalised and transverse bookkeeping is correct",
  "After calc_fields every event's field has unit norm whatever the scattering history, or is exactly zero if the scattered field vanishes; under normal incidence it is perpendicular to the direction of propagation that scatter computes from the same angles; the local field is multiplied by the amplitude scattering matrix at each event; and the optical phase accumulated by an event is k times the path length.",
  "every scattering history", HIST, [M+":Trajectory.calc_fields"])
# ---- event distribution ------------------------------------------------------------
p("C43", "event distributions account for all light",
  "calc_refl_trans_event distributes per-trajectory weights over event numbers: each trajectory contributes to exactly the bin of its own exit event, so the bins sum to the total of the contributions, and bin 0 holds the light reflected at the first surface.",
  "every batch, every index array within range", ALLN, [E+":calc_refl_trans_event"])
p("C44", "per-trajectory event tables are consistent with the per-trajectory totals",
  "calc_refl_trans_event_traj returns for each trajectory a row of per-event weights that sum to the weight passed in for that trajectory.",
  "every batch", ALLN, [E+":calc_refl_trans_event_traj"])
p("C45", "scattering-number distributions are probability distributions",
  "calc_pdf_scat returns non-negative distributions summing to 1 whenever some light is reflected (transmitted).",
  "every event distribution with positive total", ALLN, [E+":calc_pdf_scat"])
p("C46", "Fresnel-reflected light is redistributed over later events without loss",
  "calc_refl_event_fresnel_pdf adds light only to bins within the returned array, and the total it returns equals the directly reflected light plus refl_frac times the light sent back at the front plus trans_frac times the light sent back at the back, when the pdfs sum to 1.",
  "every batch size, every pdf, every index array", ALLN, [E+":calc_refl_event_fresnel_pdf", E+":calc_refl_event_fresnel_avg"])
p("C47", "total internal reflection tallies cover every event",
  "calc_tir attributes each reflected trajectory's weight to the tir tallies according to whether it was totally internally reflected before its exit, for exits at any event from 1 to nevents.",
  "every batch, every tir history", HIST, [E+":calc_tir"])
p("C48", "path lengths are non-negative, additive and non-decreasing in the exit event",
  "calc_path_length returns, for each event number, the accumulated step length up to that event; it is non-negative and non-decreasing.",
  "every step history", HIST, [E+":calc_path_length"])
# ---- refractive index ---------------------------------------------------------------
p("C49", "Maxwell-Garnett effective index interpolates between matrix and particle",
  "n_eff(..., maxwell_garnett=True) for real positive indices and volume fraction in [0,1] returns n_matrix at 0, n_particle at 1, n when both are n, and always a value between the two indices, monotone in the volume fraction.",
  "every pair of positive indices, every volume fraction in [0,1]", ALLREAL, [R+":n_eff"])
p("C50", "the Bruggeman residual is conservative",
  "For two-component and layered inputs, the Bruggeman equation solved by n_eff is satisfied by the common index when all indices are equal, by the matrix index at volume fraction 0 and, for real indices, its solution lies between the smallest and largest index.",
  "every list of real positive indices, every volume fractions summing to at most 1", ALLREAL, [R+":n_eff"])
p("C51", "n_eff validates lengths and physical sign",
  "n_eff raises ValueError when the numbers of indices and volume fractions differ, when multilayer input is used with maxwell_garnett, and when the solved index has negative imaginary part; otherwise it returns a value.",
  "every input lengths", ALLN, [R+":n_eff"])
p("C52", "Cargille oils follow the three-coefficient Cauchy law and bad arguments are rejected",
  "n_cargille(i, series, w) evaluates c + d/w^2 + e/w^4 with the i-th coefficient of the named series, and raises ValueError for every cardinal number or series that is not tabulated.",
  "every integer i, every series name, every wavelength", ALLREAL, [R+":n_cargille"])
p("C53", "material lookup is total on known materials and rejects the rest",
  "n(material, wavelength) returns the dispersion formula's value for every tabulated material, requires both data arrays for 'data', and raises KeyError for unknown materials; 'vacuum' has index 1 at every wavelength.",
  "every string, every wavelength", ALLN, [R+":n"])
# ---- structure ------------------------------------------------------------------
p("C54", "structure factors are physical",
  "factor_poly is never negative; factor_py is 1 at zero volume fraction; factor_para lies between (1-r)/(1+r) and (1+r)/(1-r) for its damping r in [0,1) and is never negative.",
  "every wavevector, volume fraction, polydispersity", ALLREAL, [S+":factor_py", S+":factor_para", S+":factor_poly"])
p("C55", "tabulated structure factors are interpolated between neighbouring data and held constant outside",
  "factor_data returns the data value at each tabulated point, lies between neighbouring data values in between, and outside the table returns the value of the nearest end point; a table that is empty or whose columns differ in length is rejected.",
  "every strictly increasing table, every query", ALLREAL, [S+":factor_data"])
# ---- model -------------------------------------------------------------------
p("C56", "single-scattering reflectance obeys the Beer-Lambert law",
  "In reflection, the attenuation factor lies in [0,1], grows with thickness, and tends to the semi-infinite limit; the returned unpolarised reflectance is the mean of the two polarised ones.",
  "every total cross section, number density and thickness", ALLREAL, [MO+":reflection"])
p("C57", "core-shell volume fractions partition the particle volume",
  "For every increasing list of radii the layer volume fractions derived in reflection (and calc_scat) are positive and sum to the given volume fraction.",
  "every number of layers, every increasing radii", ALLN, [MO+":reflection"])
p("C58", "the polydisperse size distribution is normalised",
  "size_distribution returns weights that are non-negative and whose trapezoid integral over the diameter range is 1, for both the Schulz and the Gaussian branch.",
  "every diameter grid, mean and width", ALLREAL, [MO+":size_distribution", PS+":size_distribution"])
p("C59", "cross sections are linear and non-negative",
  "_integrate_cross_section is linear in the cross section and non-negative for non-negative integrands on [0, pi].",
  "every increasing angle grid in [0, pi]", ALLN, [MO+":_integrate_cross_section"])
p("C60", "invalid combinations of form and structure models are rejected",
  "differential_cross_section and reflection raise an error for every combination of form_type and structure_type that is not supported and for polydisperse calls lacking parameters, and never fail for supported ones because of an undefined variable.",
  "every combination of the type arguments and flags", ALLN, [MO+":differential_cross_section", MO+":reflection"])
# ---- polarisation ---------------------------------------------------------------
p("C61", "reflected intensities of fields are non-negative and add up incoherently",
  "calc_refl_phase_fields returns non-negative intensities; without phase the total equals the sum of per-trajectory intensities; the coherent intensity never exceeds the number of reflected trajectories times the incoherent one.",
  "every batch of complex fields", ALLN, [PP+":calc_refl_phase_fields"])
p("C62", "co- and cross-polarised intensities partition the reflected field",
  "calc_refl_co_cross_fields rotates fields into the detector frame without changing total intensity: co + cross + longitudinal equals the total reflected intensity.",
  "every batch of complex fields and directions", ALLN, [PP+":calc_refl_co_cross_fields"])
p("C63", "trajectory times are non-negative and zero for trajectories that do not exit",
  "calc_traj_time returns 0 for trajectories that do not exit in the chosen direction and otherwise path length times index over c plus the dwell time in a particle; it is never negative and does not decrease with the exit event.",
  "every step history, every exit index", HIST, [PP+":calc_traj_time"])
# ---- spheres ---------------------------------------------------------------------
p("C64", "bulk parameters derived from a sphere simulation are physical",
  "calc_mu_scat_abs returns non-negative scattering and absorption coefficients that vanish with the volume fraction and count every trajectory's energy once with the same normalising cross-section.",
  "every batch of per-trajectory results", HIST, [PS+":calc_mu_scat_abs"])
p("C65", "calc_pdf does not modify the caller's results",
  "calc_pdf leaves the refl_indices and trans_indices arrays passed by the caller unchanged.",
  "every call", "Aliasing effects appear only for particular index contents; tests that build fresh arrays for each call never see them.", [PS+":calc_pdf"])
p("C66", "the list of sphere diameters has the requested length and is centred on the mean",
  "calc_diam_list returns num_diam diameters, strictly increasing, containing the mean diameter.",
  "every num_diam, every normalised distribution", ALLN, [PS+":calc_diam_list"])
p("C67", "sampled sphere diameters and concentrations come from the given lists with weights summing to one",
  "sample_diams and sample_concentration return one entry per sphere slot, each drawn from the given list, using non-negative probabilities that sum to 1.",
  "every random stream, every list", RNG, [PS+":sample_diams", PS+":sample_concentration"])
p("C68", "correcting for total internal reflection leaves trajectories without it unchanged",
  "In goniometer mode the positions and directions of a trajectory are mirrored only after an event at which it is totally internally reflected; a trajectory that is never totally internally reflected is left as it is, and distances and direction components keep their size.",
  "every trajectory, every total internal reflection event index", HIST, [D+":shift_traj_tir", D+":select_tir_traj"])
p("C69", "infinite coordinates are replaced by large finite ones before intersections are computed",
  "After inf_to_large no coordinate of the two points is infinite: an infinite coordinate becomes 100 radii on the side it was on, and finite coordinates within 1e20 radii are unchanged.",
  "every pair of points with coordinates in the extended reals", "Infinite coordinates arise only for particular random step draws (steps of infinite length when mu_scat is 0); tests with a few seeds do not meet them in every coordinate.", [D+":inf_to_large"])
p("C70", "the Fresnel fraction on entering a sphere is computed at the angle of incidence",
  "For a photon entering a spherical sample, the angle used for the fraction of light reflected at first incidence is the angle in the outside medium between the incident ray and the local normal.",
  "every entry point on the sphere, every incident direction, every pair of indices", ALLREAL, [D+":get_angles", D+":fresnel_pass_frac", D+":calc_refl_trans"])
p("C71", "scattering angles are sampled in proportion to the light scattered into the solid angle they represent",
  "The probability with which sample_angles draws a direction (theta, or the pair theta, phi) is proportional to the phase function there times sin(theta).",
  "every phase function of one or two angles", ALLREAL, [M+":sample_angles"])
p("C72", "user-supplied index data are interpolated at the wavelength asked for",
  "n('data', wavelength, index_data, wavelength_data) returns the datum at each tabulated wavelength, the linear interpolation between the neighbouring data in between, and raises ValueError outside the table.",
  "every table with increasing wavelengths, in any unit, and every wavelength", ALLREAL, [R+":n"])
p("C73", "the Percus-Yevick structure factor and the radial distribution function rest on the same fluid",
  "factor_py equals 1/(1 - rho*c(q)) for the spherical Fourier transform c(q) of the direct correlation function that radial_dist_py uses; it tends to the Percus-Yevick compressibility (1-phi)^4/(1+2 phi)^2 as q goes to 0 and to 1 as q goes to infinity.",
  "every wavevector other than zero, every volume fraction in [0,1)", ALLREAL, [S+":factor_py", S+":cc", S+":radial_dist_py"])
p("C74", "a mixture's structure factor does not depend on how the mixture is described",
  "factor_poly gives the same result when a species is listed as two identical species sharing its concentration, when an absent species (concentration 0) is added in either position, and when the two species are listed in the other order; the densities it uses put number densities in the ratio of the concentrations and volume fractions that add up to the total.",
  "every wavevector, volume fraction, concentrations, diameters and polydispersities", ALLREAL, [S+":factor_poly"])
p("C75", "the single-scattering model integrates over exactly the angles the detector sees",
  "In reflection, light scattered inside the sample beyond 90 degrees is integrated over if and only if its direction after refraction into the medium lies between theta_min and theta_max; reflection never fails for light incident from the medium and a detector in the backward half space, and refuses incidence beyond 90 degrees.",
  "every pair of indices, every detector range between 90 and 180 degrees, every scattering angle", ALLREAL, [MO+":reflection", MO+":fresnel_transmission"])
p("C76", "the number density reproduces the volume fraction",
  "The number density reflection uses is the number of particles per volume that, split in the ratio of the concentrations, fills exactly the given volume fraction, for one and for two species and also when one concentration is zero.",
  "every volume fraction, radii and concentrations", ALLREAL, [MO+":reflection", MO+":_number_density"])
p("C77", "the polydisperse form factor is an average of monodisperse ones",
  "polydisperse_form_factor lies between the smallest and the largest form factor of the spheres within its size distributions, for any number of species with concentrations adding up to one.",
  "every mixture, every form factor", ALLN, [MO+":polydisperse_form_factor", MO+":size_distribution"])
p("C78", "asymmetry parameter and transport length are physical",
  "The asymmetry parameter reflection returns lies strictly between -1 and 1 and the transport length is positive, longer than half the scattering length, and the inverse of number density times transport cross section.",
  "every differential cross section, grid size and number density", ALLREAL, [MO+":reflection"])
p("C79", "the structure factor is evaluated at the momentum transfer",
  "differential_cross_section multiplies the form factor by the structure factor at q d, where q is the length of the difference between scattered and incident wavevectors (at q itself in the polydisperse case), and by 1 if no structure factor is asked for.",
  "every wavevector, diameter and scattering angle", ALLREAL, [MO+":differential_cross_section"])
p("C80", "in a mixture every scattering event uses the angle and step of its own sphere type",
  "sample_angles_step_poly gives trajectory tr at event ev the scattering angles drawn from the phase function, and the step drawn from the scattering coefficient, of the sphere type drawn for (ev, tr), whatever the mixture.",
  "every list of sphere parameters, every stream of the generator", RNG, [PS+":sample_angles_step_poly"])
p("C81", "distance between spheres and place of exit are geometric",
  "calc_d_avg returns the diameter of the ball that holds one sphere at the given volume fraction, never less than the sphere diameter; get_exit_pos puts a trajectory that leaves the sphere once on its surface in the direction of the exit normal, and one that does not leave at the centre.",
  "every volume fraction, radius and exit normal", ALLREAL, [PS+":calc_d_avg", PS+":get_exit_pos"])
p("C82", "exit directions are paired with the nearest exit",
  "calc_directions returns for every place on the sphere the direction of the trajectory whose exit is nearest to it.",
  "every set of exits", ALLN, [PS+":calc_directions"])
p("C83", "the phase function of a structured sphere is made of exits paired with their own weights",
  "calc_pdf feeds the kernel density estimate one cosine per exiting trajectory with that trajectory's own weight, never fails while there is an exit, and the phase function it returns is positive and sums to one on its grid.",
  "every bundle of exiting trajectories and weights", ALLN, [PS+":calc_pdf"])
p("C84", "a photon in a sphere is decided by its first crossing of the surface",
  "For a sphere, find_valid_exits and find_event_indices report a photon at the first event after which it is outside: reflected if its refracted z direction is negative, transmitted if positive, totally internally reflected exactly if n_sample sin(theta) exceeds n_medium; a photon that is never outside is stuck and nothing else.",
  "every number of events, every trajectory, every pair of indices", ALLN, [D+":find_valid_exits", D+":find_event_indices", D+":exit_kz"])
p("C85", "light sent back inside a sphere continues from where it met the surface",
  "run_sphere_fresnel_traj restarts each photon sent back at the surface at the crossing point, in the mirror direction into the sphere, with the weight it had there; a photon that was stuck continues from where it was.",
  "every trajectory bundle and boundary", ALLN, [D+":run_sphere_fresnel_traj", D+":rotate_reflect"])
p("C86", "scattering is computed in the index the caller asks for",
  "calc_scat computes relative index, size parameter and wavevector all in the effective index if effective_medium_form, otherwise all in n_matrix, and the structure factor's momentum transfer in the effective index if effective_medium_struct, otherwise in n_matrix; the structure factor's argument is 2|k| sin(theta/2) times the outer diameter.",
  "every sample, every combination of the two flags, every Mie calculation", ALLREAL, [M+":calc_scat", MO+":differential_cross_section"])
p("C87", "fine roughness adds a coefficient and changes nothing else; absorption is that of the sample",
  "With fine_roughness > 0 calc_scat returns the same phase function, first scattering coefficient and absorption coefficient as without, plus the scattering coefficient of the bare particles in n_matrix without structure factor, and refuses a missing n_matrix; the absorption coefficient is 4 pi Im(n_sample)/wavelen.",
  "every sample, roughness fraction and Mie calculation", ALLREAL, [M+":calc_scat"])
p("C88", "incomplete polydisperse samples are refused",
  "calc_scat(polydisperse=True) raises ValueError unless radius2, concentration and pdi are given and the particle is homogeneous; otherwise it uses the polydisperse form factor and the polydisperse (or tabulated) structure factor.",
  "every combination of missing arguments", "the combinations and samples are unbounded; tests try a few", [M+":calc_scat"])
p("C89", "the total cross section is the integral of the differential one",
  "phase_function's total cross section, without absorption, is the integral over the sphere (trapezoid rule on the angle grid) of the mean of the two polarisations divided by |k|^2; it is non-negative and linear; with absorption in a binary system it is the number average over the two species; phase function and cross section come from the same differential cross sections.",
  "every differential cross section, grid and pair of species", ALLREAL, [M+":phase_function", MO+":_integrate_cross_section"])
p("C90", "slopes of a coarse surface follow the stated distribution",
  "coarse_roughness_enter with roughness r > 0 always succeeds for a film and gives every photon a facet slope strictly between 0 and 90 degrees, drawn with probability proportional to P_theta_a, which is a probability density on [0, 90) degrees with cumulative distribution 1 - exp(-tan^2/(2 r^2)) and mean squared slope 2 r^2; each photon's directions are those of its own facet; roughness 0 is a flat surface; a sphere is refused.",
  "every roughness, every number of photons, every stream of the generator", RNG, [M+":coarse_roughness_enter", M+":P_theta_a"])
p("C91", "the radial distribution function is empty inside contact and solves the Ornstein-Zernike relation",
  "radial_dist_py, at each of its grid points, is zero for r below one diameter and otherwise one plus the inverse transform of a solution of the Ornstein-Zernike equation for the Percus-Yevick direct correlation function at number density 6 phi/pi, so that one plus density times the transform is the structure factor; the equation can be solved at every wavenumber for all volume fractions but finitely many, and for all up to 0.07.",
  "every volume fraction, every interpolating spline", ALLREAL, [S+":radial_dist_py", S+":cc"])
p("C92", "the discrete spherical transforms undo each other",
  "On the grids radial_dist_py uses, inverse_spherical_FT(spherical_FT(f)) returns f; both transforms are linear.",
  "every grid size, spacing and array", ALLREAL, [S+":spherical_FT", S+":inverse_spherical_FT", S+":radial_dist_py"])
p("C93", "the structural phase is a mean of unit phases",
  "Whenever field_phase_py returns, the value has modulus at most 1, is 1 at qd = 0, is conjugated when qd changes sign, and is the mean of exp(i qd r) over sampled positions taken from r_d; it raises ValueError exactly if g(r) is negative at some position.",
  "every radial distribution, every stream of the generator, every number of samples", RNG, [S+":field_phase_py"])
p("C94", "phase_factor weights neighbours with the number density of the sample",
  "phase_factor integrates 4 pi r^2 rho g(r) pi J0(q r) with rho the number density (per diameter cubed) for which g was computed, 6 phi/pi.",
  "every volume fraction, wavenumber and grid", ALLREAL, [S+":phase_factor", S+":radial_dist_py"])
p("C95", "a complete film simulation delivers physical fractions",
  "Running initialize, sample_angles, sample_step, absorb, scatter, move and calc_refl_trans for a film one after the other never raises in the documented domain (medium not denser than the sample, draws in [0,1), with or without roughness, cover slips, goniometer); reflectance and transmittance are both NaN or non-negative with sum at most 1; without absorption, on a flat film with full-hemisphere detection, the sum is exactly 1; with absorption and no cover slips the results are never NaN.",
  "every stream of random numbers, number of events and trajectories, phase function, coefficients, indices and angles", RNG, [D+":calc_refl_trans", M+":initialize", M+":Trajectory", M+":sample_angles", M+":sample_step"])
p("C96", "more absorption never increases reflectance or transmittance",
  "With the same random numbers (or the same trajectories with smaller weights) and full-hemisphere detection, a larger absorption coefficient never gives a larger reflectance or a larger transmittance of a film, and never turns a number into NaN.",
  "every film simulation, every stream of random numbers, every pair of absorption coefficients", RNG, [D+":calc_refl_trans", M+":Trajectory.absorb"])
p("C97", "the result does not depend on the unit of length",
  "Multiplying all lengths of a film simulation (positions, thickness, z_low, spot size, and the size and distance of the goniometer detector) by c > 0 and dividing all coefficients by c reproduces exactly the same reflectance, transmittance and per-trajectory arrays, with or without a goniometer.",
  "every film simulation, with or without goniometer, every stream of random numbers, every c > 0", RNG, [D+":calc_refl_trans", M+":initialize", M+":sample_step", M+":Trajectory"])
p("C98", "the order of the trajectories is irrelevant",
  "Relabelling the trajectories passed to calc_refl_trans relabels the per-trajectory results in the same way and leaves reflectance, transmittance, errors and NaN unchanged: for a film with or without roughness, cover slips and goniometer, and for a smooth sphere including every generation of re-started photons (whose random numbers are relabelled with them).",
  "every bundle of trajectories and every permutation", ALLN, [D+":calc_refl_trans"])
p("C99", "what a photon does after leaving the sample is irrelevant",
  "If every trajectory leaves the film, the reflectance and transmittance are fixed by positions up to, and directions and weights before, each trajectory's exit; in particular simulating more events with the same random numbers does not change the result once no photon is stuck. This holds with and without a goniometer, and also for a sphere when light sent back at its surface is not followed again.",
  "every film simulation with or without goniometer (and every sphere evaluation without re-running), every stream of random numbers, every pair of event numbers", RNG, [D+":calc_refl_trans", D+":find_valid_exits", D+":find_event_indices"])
p("C100", "a complete sphere simulation delivers physical fractions",
  "Running initialize, sample_angles, sample_step, absorb, scatter, move and calc_refl_trans for a smooth sphere one after the other never raises in the documented domain (medium not denser than the sample, spot not larger than the sphere, draws in [0,1)), including all generations of photons that are re-started where light was sent back at the surface: reflectance and transmittance are numbers, non-negative, with sum at most 1; without absorption and with full-hemisphere detection the sum is exactly 1.",
  "every stream of random numbers in every generation, number of events and trajectories, phase function, coefficients, indices, max_call_depth, max_stuck", RNG, [D+":calc_refl_trans", D+":run_sphere_fresnel_traj", D+":get_angles", M+":initialize", M+":Trajectory", M+":sample_angles", M+":sample_step"])
p("C101", "calc_refl_trans for a film computes the documented estimator",
  "For every bundle of trajectories in a film, reflectance, transmittance and the per-trajectory arrays are given by one formula: each photon enters with the fraction its angle of incidence lets through the front plate, leaves at the first event at which it meets a face inside the critical cone, escapes there with the fraction the plate at that face lets through, is counted if its refracted direction is within the detection angle, and light of unknown final state (sent back at a face, or trapped) is shared out in the proportions of the light of known final state; also with coarse roughness and with a goniometer.",
  "every bundle of trajectories, indices, cover slips, detection angle, thickness", ALLREAL, [D+":calc_refl_trans", D+":fresnel_correct_enter", D+":fresnel_correct_exit", D+":detect_corrected_traj", D+":distribute_ambig_traj_weights"])
p("C102", "specular reflection is detected at its own angle",
  "Light reflected from the film at first incidence is counted in the reflectance exactly if its angle in the medium, the angle of incidence, is within the detection angle.",
  "every film simulation, angle of incidence, index, detection angle", ALLREAL, [D+":detect_corrected_traj", D+":get_angles"])
p("C103", "sampled steps are independent and exponentially distributed",
  "If the generator delivers independent uniform numbers, the steps returned by sample_step are independent over events and trajectories, each exponentially distributed with the scattering coefficient (first steps of the roughened trajectories: with the second coefficient), so that a fraction exp(-mu s) of the photons travels further than s unscattered and the mean step is 1/mu.",
  "every probability space carrying independent uniform numbers, every coefficient, roughness fraction, event and trajectory", "a distribution over infinitely many outcomes; a test can only estimate it from a finite sample", [M+":sample_step"])
p("C104", "the incident beam is uniform",
  "If the generator delivers independent uniform numbers, initialize places the photons independently and uniformly: over the square spot for a film (with angles of incidence uniform between their limits and independent of everything else), over the disc of diameter spot_size, by area, for a sphere.",
  "every probability space carrying independent uniform numbers, every spot size, angles, number of photons", "a distribution over infinitely many outcomes; a test can only estimate it from a finite sample", [M+":initialize"])
p("C105", "sampled scattering angles follow the phase function",
  "If the generator delivers independent uniform numbers, sample_angles returns independent angles: each theta equals the k-th grid angle with probability p_k sin(theta_k) / sum(p sin(theta)), each phi is uniform on [0, 2 pi); for a phase function of both angles the pair has the product of the marginal of phi and the conditional of theta, independently over events and trajectories.",
  "every probability space carrying independent uniform numbers, every phase function, grid size, event and trajectory", "a distribution over infinitely many outcomes; a test can only estimate it from a finite sample", [M+":sample_angles"])
p("C106", "scattering that does not depend on azimuth is sampled without azimuthal bias",
  "For a phase function that does not depend on phi, the mean of cos(phi) and of sin(phi) over the sampled azimuths is zero, whether the phase function is given on a grid of theta or on a grid of theta and phi.",
  "every phase function of theta, every grid size", "an expectation over infinitely many outcomes", [M+":sample_angles"])
p("C107", "light loses its direction at the rate the phase function says",
  "On average over the random numbers, light entering along z has the direction (0, 0, g^n) after n scattering events, where g is the mean cosine of the phase function, and the mean cosine of the angle between the directions before and after any single event is g.",
  "every non-negative phase function of theta, every number of events, every stream of independent uniform numbers", "an expectation over a random walk of any length", [M+":Trajectory.scatter", M+":sample_angles"])
p("C108", "the mean path of light through the sample",
  "On average over the random numbers, light entering along z has moved by (1 + g + ... + g^(n-1))/mu_scat in depth after n steps, and not at all sideways; as n grows this tends to one transport length, 1/(mu_scat (1-g)).",
  "every non-negative phase function of theta, every scattering coefficient, every number of steps, every stream of independent uniform numbers", "an expectation over a random walk of any length", [M+":Trajectory.move", M+":Trajectory.scatter", M+":sample_angles", M+":sample_step"])
p("C109", "calc_refl_trans for a sphere computes the documented estimator",
  "For every bundle of trajectories in a sphere, without re-running the light sent back at the surface, reflectance, transmittance and the per-trajectory arrays are given by one formula: each photon enters with the fraction the front interface passes, leaves at the first event that ends outside the sphere, is reflected or transmitted by the sign of the z component that exit_kz reports there (neither if it does not get out), escapes with the fraction passed at the angle at which its step crosses the surface, is counted if it leaves within the detection angle, and light sent back or trapped is shared equally between reflectance and transmittance.",
  "every bundle of trajectories, indices, cover slips, detection angle, radius", ALLREAL, [D+":calc_refl_trans", D+":find_valid_exits", D+":get_angles", D+":distribute_ambig_traj_weights"])
p("C110", "Absorption acts along the path inside the sample",
  "Light that leaves the sample at a point of its path carries the weight it started with times exp(-mu_abs * length of its path inside the sample, up to that point).",
  "every path, step lengths, absorption coefficient, exit event and exit point", ALLREAL, [M+":Trajectory.absorb", M+":Trajectory.move", D+":calc_outcome_weights"])
p("C111", "Unscattered light obeys Beer's law",
  "In a smooth film of thickness L lit at one angle of incidence, the probability that a photon crosses the film in its first event is exp(-mu_scat L / c), where c is the cosine of the angle of refraction; the mean weight with which this light arrives is exp(-(mu_scat + mu_abs) L / c).",
  "every film, angle of incidence, coefficients, phase function, number of events and trajectories; over the distribution of the draws", RNG, [M+":sample_step", M+":initialize", M+":Trajectory.absorb", D+":find_valid_exits", D+":find_event_indices"])
p("C112", "More trajectories give the right answer",
  "For a smooth film lit at one angle of incidence, the fraction of trajectories found transmitted without scattering converges with probability one to exp(-mu_scat L / c) as the number of trajectories grows; for every number of trajectories it has that mean and the variance p(1-p)/ntraj.",
  "every film and angle of incidence; every number of trajectories, and the limit; over the distribution of the draws", RNG, [M+":sample_step", M+":initialize", D+":find_valid_exits", D+":find_event_indices"])
p("C113", "calc_scat_bulk can be called twice",
  "Calling calc_scat_bulk a second time with the same arrays returns the same phase function and coefficients.",
  "every batch of exits, with exit positions or directions, every density estimate", HIST, [PS+":calc_scat_bulk", PS+":calc_pdf"])
p("C114", "A complete multiscale simulation delivers physical fractions",
  "For every simulation of a structured sphere followed by calc_scat_bulk and a simulation of a film with the phase function and coefficients it returns, the phase function is made of positive numbers adding up to 1, the coefficients are physical, and the film simulation runs without error and gives reflectance and transmittance that are non-negative with sum at most 1 (or both NaN).",
  "all random numbers on both scales, all numbers of photons and events, all re-runs, all volume fractions, every positive density estimate", RNG, [PS+":calc_scat_bulk", PS+":calc_mu_scat_abs", PS+":calc_pdf", D+":calc_refl_trans", D+":run_sphere_fresnel_traj", M+":initialize"])
p("C115", "A phi-dependent phase function can be requested",
  "calc_pdf and calc_scat_bulk with phi_dependent=True return a phase function of nu and phi.",
  "every batch of exits", ALLREAL, [PS+":calc_pdf", PS+":calc_scat_bulk"])
p("C116", "conv_circ is the circular convolution",
  "For two real arrays of equal length n > 0, conv_circ returns n real numbers, the j-th being the sum of signal[i] * ker[(j-i) mod n]; nothing is discarded by taking the real part, the arguments may be exchanged, the results add up to the product of the two totals, and non-negative arrays give non-negative results. Empty arrays and different lengths (unless one is 1) are ValueErrors.",
  "all real arrays of all lengths", ALLREAL, [PS+":conv_circ"])
p("C117", "absorption_cross_section is an average of Mie absorption cross sections",
  "absorption_cross_section returns 0 without a particle geometry, the Mie cross section (never negative for multilayer particles) for one sphere, and for a polydisperse system the average over the size distribution and the species of the cross sections of the spheres; unknown geometries and incomplete arguments are refused with ValueError.",
  "every geometry, size distribution, concentration, matrix index, Mie cross section", ALLREAL, [MO+":absorption_cross_section", MO+":size_distribution"])
p("C118", "each direction has the distribution of scattering in the photon's own frame",
  "If the generator delivers independent uniform numbers and the light enters along z, then at every event the directions of all trajectories together have the distribution they would have if every scattering event turned the photon by the sampled angles relative to its current direction.",
  "every phase function (of theta, or of theta and phi), number of events and trajectories, every stream of independent uniform numbers", "an equality of distributions over a random walk of any length", [M+":Trajectory.scatter", M+":sample_angles"])
p("C119", "totally internally reflected light can be tallied coherently",
  "calc_tir with phase=True returns the intensity of the summed fields of the totally internally reflected trajectories at each event, and calc_tir_phase_event_input returns their weights and event numbers.",
  "every bundle of trajectories", ALLN, [E+":calc_tir", E+":calc_tir_phase_event_input"])
p("C120", "Fresnel coefficients of absorbing samples",
  "fresnel_reflection accepts complex refractive indices: at normal incidence, where the polarisations are indistinguishable, both coefficients are |(n1-n2)/(n1+n2)|^2; the coefficients are fractions at every angle from 0 to 90 degrees; with real indices they are the ordinary ones.",
  "every pair of indices with positive real part, every angle of incidence", ALLREAL, [MO+":fresnel_reflection", MO+":fresnel_transmission", MO+":reflection"])
p("C121", "the two models scatter alike",
  "For one sample, described to model.reflection and to montecarlo.calc_scat with the same grid of angles and the effective index that reflection computes, the scattering coefficient of calc_scat is the inverse of transport_length*(1-asymmetry_parameter) as returned by reflection.",
  "every sample: any layers, absorbing or not, monodisperse, binary or polydisperse, any form and structure factor, any effective-medium flags under which both succeed", ALLREAL, [MO+":reflection", M+":calc_scat", M+":phase_function", MO+":differential_cross_section"])
p("C122", "single-scattering reflectance of an absorbing film",
  "For an absorbing sample, reflection returns finite values; a film of thickness L reflects, in each polarisation, its Fresnel reflection plus the share (1-exp(-(mu_s+mu_a)L)) mu_s/(mu_s+mu_a) of what the semi-infinite sample adds to it, mu_s and mu_a being the coefficients calc_scat returns for the sample; the asymmetry parameter lies in [-1,1], the transport length is at least half the scattering length, neither depends on the thickness, and the unpolarised reflectance is the mean of the polarised ones.",
  "every absorbing sample with Im n <= Re n, every thickness, angle of incidence, backward detector range and non-negative differential cross section", ALLREAL, [MO+":reflection", M+":calc_scat"])
p("C123", "event plots",
  "plot_refl_event_norm draws, for every requested event, the fraction of the light still in the sample that this event sends out: a value in [0,1] (a gap when no light is left), and the complements of these fractions multiply up to the light remaining after any number of events. plot_refl_event_sum over all events draws the total reflectance. plot_refl_dist draws a probability distribution over events at a listed wavelength and raises IndexError otherwise. plot_refl_event_sum_norm draws a reflectance between 0 and 1. A plot is made exactly if every event is an index of the event axis and the table has one row per wavelength.",
  "all event tables with non-negative entries and row sums at most 1, all numbers of wavelengths and events, all lists of requested events",
  ALLREAL, [E + ":plot_refl_event", E + ":plot_refl_event_norm", E + ":plot_refl_event_sum", E + ":plot_refl_event_sum_norm", E + ":plot_refl_dist"])
p("C124", "saved data are not overwritten by another sample",
  "In a session of save_data calls, the data of a call can still be read from its file at the end unless a later call saved the same sample: different samples, wavelengths or simulation sizes go to different files, and parameters may be given in any form the rest of the package accepts.",
  "all sessions (sequences of calls) of any length, all starting contents of the directory, all parameter values",
  HIST, [E + ":save_data"])
p("C125", "light spreads at the rate diffusion theory gives",
  "On average over the random numbers, the squared distance of light from its point of entry after n events is (2/mu_scat^2) times the sum over l < n of 1 + g + ... + g^l, so that after many events it grows per event by twice the scattering length 1/mu_scat times the transport length 1/(mu_scat (1-g)).",
  "every non-negative phase function of theta, every scattering coefficient, every number of events and their limit, every stream of independent uniform numbers", "a second moment of a random walk of any length, and its limit", [M+":Trajectory.scatter", M+":Trajectory.move", M+":sample_angles", M+":sample_step"])
p("C126", "what happens to light at oblique incidence does not depend on the azimuth it comes from",
  "For light that enters at any polar angle, the probability of every statement about its inclinations to the film (heading back or on, within or outside the critical angle) after any number of scattering events is that of scattering by the sampled angles in the light's own frame; in particular it does not depend on the azimuth of incidence.",
  "every polar angle and azimuth of incidence, every phase function of theta, every number of events, every stream of independent uniform numbers", RNG, [M+":Trajectory.scatter", M+":initialize", M+":sample_angles"])
p("C127", "every photon leaves the film sooner or later",
  "However thick the film, however strong the scattering and whatever the phase function, the probability that a photon is still in the film after n events falls at least exponentially with n, at a rate that does not depend on the illumination, the absorption or the roughness; so with enough events the warning about stuck light disappears.",
  "every film, medium not denser than the sample, every scattering coefficient and non-negative phase function, every illumination, every number of events and the limit, every stream of independent uniform numbers",
  "the probability of an event of a random walk of unbounded length", [M+":Trajectory.scatter", M+":Trajectory.move", M+":sample_angles", M+":sample_step", D+":find_valid_exits", D+":find_event_indices", D+":calc_outcome_weights"])
p("C128", "events after the last photon has left do not change the result, and the result settles",
  "Once no photon is stuck, simulating more events with the same random numbers gives exactly the same reflectance, transmittance and per-photon shares; a photon that is not stuck after n events is not stuck after more. With probability one the reported result settles: from some number of events on it does not change any more.",
  "every film run, with or without goniometer, that does not fail, every two numbers of events, every stream of random numbers (first part); medium not denser than the sample and independent uniform numbers (second part)",
  "compares runs of every length, and a limit over unbounded runs", [M+":Trajectory.scatter", M+":Trajectory.move", D+":find_valid_exits", D+":find_event_indices", D+":calc_refl_trans"])
p("C129", "with a fine grid of angles the single-scattering model evaluates its integrals",
  "As num_angles grows, the single-scattering reflectance of a transparent sample converges, in each polarisation, to the textbook Fresnel reflectance of the surface plus the light that enters, is scattered into the detector's range of angles (as refracted by Snell's law) and transmitted on its way out by the textbook Fresnel coefficient, relative to everything scattered and absorbed; the asymmetry parameter converges to the mean cosine of the scattering angle and the transport length to 1/(rho sigma (1-g)).",
  "every pair of real indices, every angle of incidence up to 90 degrees, every detector in the backward half space, every pair of continuous non-negative differential cross sections that scatter, every thickness",
  "a limit of sums with a discontinuous integrand (critical angle)", [MO+":reflection"])
p("C130", "with a fine grid of angles the Monte Carlo model samples the continuous phase function",
  "As the grid of angles is refined, sampling succeeds and the probability that a sampled scattering angle is at most t converges to the share of light that the continuous phase function scatters into angles up to t, weighted by solid angle; the mean direction cosine of light after e scattering events converges to g^e with g the mean cosine of the continuous phase function.",
  "every continuous non-negative phase function that scatters, of any normalisation, every smallest angle, every photon and every event",
  RNG, [M+":sample_angles", M+":Trajectory.scatter"])
p("C131", "Monte Carlo photons penetrate on average to the transport length of the single-scattering model",
  "For one transparent sample described to both models, refining the grid of angles makes the transport length reported by the single-scattering model converge to a length, and the mean depth after e steps of photons simulated with the phase function and scattering coefficient of the Monte Carlo model converge to a depth that tends to that same length as the number of steps grows.",
  "every transparent sample with continuous differential cross sections that scatters, every smallest angle below pi, every photon",
  RNG, [MO+":reflection", M+":calc_scat", M+":sample_angles", M+":sample_step", M+":Trajectory"])
p("C132", "The sizes of a polydisperse powder do not depend on the unit of length",
  "Giving the mean diameter of a polydisperse powder in another unit of length changes neither the list of diameters considered nor the diameters sampled, whichever units the mean and the list are in.",
  "every mean diameter, polydispersity index, number of diameters, pair of units and random draws",
  ALLREAL, [PS+":calc_diam_list", PS+":sample_diams", PS+":size_distribution"])
p("C133", "The results of both models of a sample do not depend on the unit of length",
  "Expressing the wavelength, radii and thickness of one sample in another unit of length leaves the reflectances, the asymmetry parameter and the phase function unchanged, converts the transport length and the scattering and absorption coefficients to the new unit, and gives the same error if there is one; the form factor of polydisperse particles does not change either.",
  "every sample description with or without core-shell particles, a second species, absorption, a thickness, effective media and fine roughness, and every positive ratio of units",
  ALLREAL, [MO+":reflection", MO+":polydisperse_form_factor", M+":calc_scat", M+":phase_function"])
p("C134", "Monte Carlo results for a sphere do not depend on the unit of length",
  "Giving the positions of all trajectories and the diameter of a sphere in another unit of length changes neither the reflectance and transmittance nor the contribution of any trajectory, and does not change through which side a photon is counted as leaving.",
  "every bundle of trajectories in a sphere, every index contrast, every ratio of units", ALLREAL, [D+":exit_kz", D+":rotate_refract", D+":calc_refl_trans"])
p("C135", "Electric fields and coherent reflectance do not depend on the unit of length",
  "Giving wavelength, radius and steps in another unit of length changes neither the reflectance with interference nor the one without, nor the moduli of the field components of any trajectory at any event.",
  "every bundle of trajectories, amplitude scattering matrices, wavelength, steps and ratio of units", ALLREAL, [M+":Trajectory.calc_fields", PP+":calc_refl_phase_fields"])
p("C136", "a Cargille liquid has the index it is sold for",
  "n_cargille(i, series, 589.3 nm) is the nominal index of the i-th liquid of the series (AAA 1.300+0.005i, AA 1.400+0.002i, A 1.460+0.002i, B 1.642+0.002i, E 1.500+0.005i) to within rounding of the tables.",
  "every graded series and every cardinal number in it", "a test would compare single liquids; the claim is about all 200 tabulated liquids and fails for whole series", [R+":n_cargille"])
p("C137", "with more trajectories, reflectance and transmittance converge",
  "Simulate a smooth film with more and more trajectories fed from one stream of independent uniform numbers. With probability one the reflectance and transmittance returned by calc_refl_trans converge, and the limits are the estimator's formula with expectations over a single photon in place of averages over the bundle (or they are NaN for every number of trajectories, with probability one, if the expected light of known final state is zero).",
  "all films without roughness, ranges of angles of incidence, phase functions, scattering and absorption coefficients, cover plates, detection angles, numbers of events; almost every stream of random numbers", RNG, [M+":initialize", M+":sample_angles", M+":sample_step", M+":Trajectory.scatter", M+":Trajectory.move", M+":Trajectory.absorb", D+":calc_refl_trans"])
p("C138", "a goniometer reads no more than all the light, and less when it counts less",
  "For one simulation of a film, the reflectance calc_refl_trans returns with detector=True is at most the one without, and a detector that counts a subset of the photons another one counts reads at most as much, in total and photon by photon; a detector that counts no photon (for instance one of size zero) reads 0. The transmittance does not depend on the detector, which is on the other side of the film.",
  "every film run that does not fail, every pair of detectors, every stream of random numbers", ALLREAL, [D+":calc_refl_trans", D+":calc_indices_detected", D+":distribute_ambig_traj_weights"])
p("C139", "the goniometer's detector is a square",
  "A photon that leaves the sample at the origin is counted by the goniometer exactly if the ray along which it leaves meets the square of side det_len whose centre is at distance det_dist in the direction det_theta from the normal and which faces the sample.",
  "every exit direction, detector angle, side and distance, every pair of indices", ALLREAL, [D+":calc_indices_detected"])
p('C140', 'plots of phase functions and exit points show densities and exits',
  'plot_phase_func draws (and saves) a probability density: non-negative, in proportion to the given density, and normalised over its grid, as a curve over theta or as a map over theta and phi; plot_dist_1d likewise; calc_pdf(plot=True) returns whenever calc_pdf does; plot_exit_points draws an exit at its own polar angle and azimuth, so that calc_directions for these angles returns the direction of that exit.',
  'every density, every grid of nu in [0,1] and phi, every exit on the sphere', ALLREAL, [PS+':plot_phase_func', PS+':plot_dist_1d', PS+':plot_exit_points', PS+':calc_pdf', PS+':calc_directions'])
p('C141', 'limits in the number of events and of trajectories agree',
  'Running a smooth film with more and more events, every trajectory stops changing with probability one, the expected light still in the film falls geometrically, and the mean number of events before a photon leaves is finite. Reflectance and transmittance converge to the same numbers whether first the number of trajectories and then that of events grows or the other way round; the limits are fractions with sum at most 1, and exactly 1 without absorption when all angles are detected. The light of known final state only grows with the number of events.',
  'every smooth film (indices, plates, thickness, beam, phase function, coefficients, detection angle), almost every stream of random numbers, all numbers of events and trajectories', RNG, [M+':initialize', M+':Trajectory', D+':calc_refl_trans', D+':find_event_indices', D+':calc_outcome_weights'])
p('C142', 'goniometer with a sphere',
  'For a spherical sample, `calc_refl_trans(..., detector=True)` should count exactly the photons whose ray, refracted at the surface of the sphere, hits the detector; leave the transmittance unchanged; return whenever the same call without detector returns; and read zero when no photon hits.',
  'all bundles of trajectories, diameters, indices, detector angles, sizes and distances, with and without re-running the light sent back', ALLREAL, [D+':calc_refl_trans', D+':calc_indices_detected', D+':shift_traj_tir', D+':get_angles', D+':run_sphere_fresnel_traj'])
p('C143', 'statistical error of a film run',
  'For a smooth film simulated with N trajectories fed with independent uniform numbers, reflectance and transmittance differ from the values they converge to by at most (5/2 + 2/known)·eps (plus a term for a detector that misses part of the escaping light), except with probability at most 18·exp(−2·N·eps²); so a prescribed accuracy and confidence is reached from an explicit number of trajectories on.',
  'all numbers of trajectories and events, phase functions, ranges of angles of incidence, absorption, plates, indices, thicknesses, detection angles, and all eps below the expected light of known final state', RNG, [D+':calc_refl_trans', D+':distribute_trajs', D+':fresnel_correct_enter', M+':Trajectory', M+':initialize'])
p('C144', 'a simulation may be split into batches',
  'Reflectance and transmittance of a run are the averages of those of the batches of trajectories it is split into, weighted with the numbers of trajectories; each trajectory contributes the same whatever other trajectories are simulated with it.',
  'all numbers of trajectories and events, splittings, choices and orders of trajectories, random numbers, phase functions, coefficients, indices, plates, sizes', ALLN, [D+':calc_refl_trans', D+':distribute_ambig_traj_weights', D+':run_sphere_fresnel_traj', M+':initialize', M+':Trajectory'])
p('C145', 'sphere simulations are unbiased, with a known error, and converge',
  'For a sphere whose light is counted over the full hemispheres, the simulated reflectance and transmittance have the same expectation whatever the number of photons, are off by eps or more with probability at most 2 exp(-2 N eps^2), and converge with probability one as photons are added; every run succeeds with probability one.',
  'all spheres, phase functions, coefficients, indices, numbers of photons and events, generations of re-runs, tolerances eps, and all sources of independent uniform numbers', RNG, [D+':calc_refl_trans', D+':run_sphere_fresnel_traj', M+':initialize', M+':sample_angles', M+':sample_step'])
p('C146', 'how many events a sphere needs',
  'For a sphere, simulating more events than it takes the photons to leave does not change the result, and every photon leaves: the probability that it has not left a sphere of diameter D after n events is at most (1 - exp(-mu D))^n.',
  'all spheres, phase functions, coefficients, indices, plates, numbers of photons, detection angles, treatments of the light sent back (shared out or re-run with any limits), numbers of events and random numbers', RNG, [D+':find_event_indices', D+':calc_outcome_weights', D+':calc_refl_trans', D+':run_sphere_fresnel_traj', M+':sample_step'])
p('C147', 'more absorption never brightens a sphere',
  'For a sphere and a given sequence of random numbers, increasing the absorption coefficient increases neither the reflectance nor the transmittance, nor the contribution of any photon.',
  'all spheres, phase functions, coefficients, indices, plates, numbers of photons and events, generations of re-runs, pairs of absorption coefficients, and random numbers', ALLREAL, [M+':absorb', D+':calc_refl_trans', D+':run_sphere_fresnel_traj', D+':calc_outcome_weights'])
p('C148', 'a thicker or denser film reflects more and transmits less',
  'For a film of the refractive index of its surroundings and a given sequence of random numbers, making the film thicker, or putting k >= 1 times as many scatterers and absorbers into the same thickness, does not lower its reflectance and does not raise its transmittance (up to the 1e-9 that the code adds to its denominators), and where the thicker film gives a number instead of nan, so does the thinner one.',
  'all smooth index-matched films without cover slips, phase functions, coefficients, angles of incidence, numbers of photons and events, pairs of thicknesses, factors k >= 1, and random numbers', ALLREAL, [D+':calc_refl_trans', D+':find_valid_exits', D+':set_up_values', M+':Trajectory.move', M+':Trajectory.absorb'])
p('C149', 'a film that hardly scatters is a clear plate',
  'As the scattering coefficient of a smooth film goes to zero, its reflectance and transmittance become those of a clear plane-parallel plate of the same index, thickness and absorption.',
  'all smooth films without cover slips, all indices not below that of the medium, thicknesses, phase functions, angles of incidence below 90 degrees, absorption coefficients, numbers of photons and events, and random numbers', ALLREAL, [D+':calc_refl_trans', D+':fresnel_correct_exit', M+':Trajectory.absorb'])
p('C150', 'a film has no preferred place and no handedness',
  'Without a goniometer, the reflectance and transmittance of a film do not depend on where its surface is illuminated or on the size of the spot, and a run on a smooth film gives the same result as its mirror image (all azimuths reversed), including any exception.',
  'all arguments of film runs without goniometer (the mirror image: without coarse roughness), all random numbers, entrance points and spot sizes', ALLREAL, [M+':initialize', M+':Trajectory.scatter', M+':Trajectory.move', D+':calc_refl_trans'])
p('C151', 'haze is the light that leaves away from the forward direction',
  'The haze of a film is the part of the transmitted light that travels, behind the film, at more than the cutoff angle (4.5 degrees) to the forward direction.',
  'all complete film runs with a positive transmittance, all cutoff angles up to 90 degrees, indices not below that of the medium, roughnesses, cover slips, detectors, numbers of photons and events, and random numbers', ALLREAL, [D+':calc_haze', D+':calc_refl_trans', D+':select_events'])
p('C152', 'the reflectance of the single-scattering model is a fraction',
  'The reflectance returned by the single-scattering model is between 0 and 1, as an average over polarisations and for each polarisation.',
  'all samples (indices, angle of incidence up to 90 degrees, continuous non-negative differential cross sections, absorption), all detectors in the backward half space, all thicknesses, as the grid of angles is refined', ALLREAL, [MO+':reflection', D+':fresnel_reflection'])
p('C153', 'a sphere that hardly scatters and has the index of its surroundings is invisible',
  'As the scattering coefficient of a smooth sphere without cover slips and of the index of its surroundings goes to zero, everything it does not absorb along at most a diameter is transmitted and nothing is reflected.',
  'all spheres, indices (equal inside and outside), spot sizes up to the diameter, phase functions, detection angles, absorption coefficients, numbers of photons and events, re-run settings and random numbers', ALLREAL, [D+':calc_refl_trans', M+':Trajectory.absorb', M+':initialize'])
p('C154', 'the complete single-scattering model of a transparent film',
  "For a film of particles that does not absorb in its effective medium, reflection() returns, on a fine grid of angles, the integrals of single-scattering theory for the sample and the detector it was given: the index the caller chose with the two effective-medium flags, the number of particles that fills the volume fraction, the absorption cross section of those particles in that index, and the detector's own range of angles. At normal incidence the reflectance is a fraction.",
  'all samples (particles with any number of layers, one or two species, any volume fraction, indices, wavelength, thickness), all angles of incidence up to 90 degrees, all detectors in the backward half space, all continuous non-negative differential cross sections, as the grid of angles is refined', ALLREAL, [MO+':reflection', D+':fresnel_reflection'])
p('C155', 'a plot of trajectories shows where the photons are',
  'Trajectory.plot_coord(ntraj) draws, for the number of trajectories asked for, the coordinates of each photon at its start and after every event; in three dimensions each trajectory has a colour of its own.',
  'all trajectories (any number, any number of events, start points, directions and steps), all numbers asked for', HIST, [M+':Trajectory.plot_coord', M+':Trajectory.move'])
p('C156', "a simulation with a generator of one's own is reproducible, and its statistical error is the one of independent streams",
  "If initialize, sample_angles and sample_step are given the same rng, the result of the run depends only on the state of that generator: it is the same as that of any other run with a generator in the same state, and the same as with the module's generator in that state. The module's generator is left alone and the own one advances by a number of numbers known beforehand, so runs with different generators can be done in any order. No number is used twice; so if the generator's numbers are independent and uniform on [0, 1), reflectance and transmittance of a smooth film have the statistical error of C143.",
  'all arguments of initialize (film or sphere, smooth or rough, data given or not), all phase functions and coefficients, all numbers of trajectories and events, all states of both generators; the error: all smooth films, all probability spaces, all starting positions in the stream', RNG, [M+':initialize', M+':sample_angles', M+':sample_step', I+':rng', D+':calc_refl_trans'])
p('C157', 'runs one after the other with the same generator are independent, and the standard error of their mean is right',
  'If runs of smooth films (of any settings, numbers of trajectories and numbers of events) follow one another and all take their numbers from the same generator, whose numbers are independent and uniform on [0, 1), then their reflectances and transmittances are independent. For k runs with the same settings, the average of the reflectance (or transmittance) has the expected value of one run and a variance smaller by the factor k; the squared standard error calculated from the spread of the results has that variance as its expected value; the average tends to the expected value with probability one; and it is within z standard errors with a probability that tends to that of the normal distribution.',
  'all sequences of smooth-film runs in the documented domain, all probability spaces, all starting positions in the stream, own and module generator, all numbers of runs', RNG, [M+':initialize', M+':sample_angles', M+':sample_step', I+':rng', D+':calc_refl_trans'])
p('C158', "sphere runs with a random number generator of one's own, re-runs included",
  'If initialize, sample_angles, sample_step and calc_refl_trans all get the same generator as rng (or none of them any), the result of a sphere run depends on the state of that generator alone, also when reflected light is run again; the other generator is not touched, and this one ends at a later position of the same stream, past all the numbers that the run has read, so that successive runs use different numbers. Each number has one use: two for the place at which a photon enters, then, generation by generation, those of the azimuths, the scattering angles and the steps, each generation having one event more than the one before; no number is used for two photons, two events or two generations. If the numbers are independent and uniform on [0, 1), the expected reflectance and transmittance are the same for all numbers of photons and all positions at which the run starts, they are fractions with sum at most 1 (exactly 1 without absorption), and a run of N photons is off by e or more with probability at most 2 exp(-2 N e^2).',
  'all sphere runs (statistics: documented domain, hemispherical detector, reflected light shared out or always run again), all generator states, all probability spaces, all numbers of photons and events', RNG, [M+':initialize', M+':sample_angles', M+':sample_step', D+':calc_refl_trans', D+':run_sphere_fresnel_traj'])
p('C159', 'sphere runs one after the other with the same generator',
  "If one runs sphere simulations one after the other with the same random number generator as rng (for initialize, sample_angles, sample_step and calc_refl_trans), and if light reflected back into the sphere is either never run again or always (max_stuck negative), then every run takes a number of numbers that is known beforehand: for N photons and n events, N times 2 plus the sum over the generations g (one, or 21 with re-runs) of 2 (n + g - 1) + (n + g). If the generator's numbers are independent and uniform, the runs are therefore independent, whatever their settings. Repeated runs with the same settings are also identically distributed: their average has the expected value of one run, its variance is that of one run divided by the number of runs, the standard error from the spread of the results is right on average, the average tends to the expected value with probability one, and the usual error bars hold in the limit.",
  'all sequences of sphere runs in the documented domain with a hemispherical detector, all generator states, numbers of photons and events, all probability spaces with numbers strictly between 0 and 1', RNG, [M+':initialize', M+':sample_angles', M+':sample_step', D+':calc_refl_trans', D+':run_sphere_fresnel_traj'])
p('C160', 'the scattering angles of reflected trajectories',
  'calc_thetas_event_traj, given the angles of a simulation and the events at which its trajectories are reflected, returns for each reflected trajectory, at the event at which it is reflected, the scattering angle by which it was turned towards the surface, and zeros elsewhere.',
  'all simulations, all arrays of angles and event numbers, all numbers of events and trajectories', ALLN, [E+':calc_thetas_event_traj', M+':sample_angles', M+':Trajectory.scatter'])
p('C161', 'the phases of the incident light',
  'Unless coherent=True, the initial fields of different trajectories are incoherent: averaged over the phases drawn, the reflectance with interference equals the one without, whatever happens to the light in the sample. With polarized=True the incident light is linearly polarised along x; with polarized=False it is unpolarised: any polariser passes half of it on average.',
  'all simulated histories (scattering matrices, angles, steps, exits, reflectances), all numbers of trajectories, averaged over all phases drawn; all polarisers', ALLN, [M+':initialize', M+':Trajectory.calc_fields', 'structcol/detector_polarization_phase.py:calc_refl_phase_fields'])
out = os.path.join(os.path.dirname(os.path.abspath(__file__)), "..", "properties.jsonl")
with open(out, "w") as f:
    for x in P: f.write(json.dumps(x, ensure_ascii=False) + "\n")
print(len(P))
