{"id": "C01", "title": "refraction obeys Snell's law and signals total internal reflection by NaN", "statement": "For positive refractive indices, refraction(angles, n_before, n_after) returns at each position either an angle in [-pi/2, pi/2] whose sine times n_after equals n_before times the sine of the input angle, or NaN, and it returns NaN exactly when no such angle exists (n_before*|sin(angle)| > n_after).", "quantifier": "every array of real angles, every pair of positive indices", "why_tests_cant": "The claim ranges over a continuum of real inputs; a finite set of test points cannot settle it, least of all at the boundary values where branches switch.", "anchors": ["structcol/__init__.py:refraction"]}
{"id": "C02", "title": "refraction is reversible", "statement": "Refracting an angle in [-pi/2, pi/2] from medium 1 to medium 2 and, when that is not NaN, refracting the result back from 2 to 1 returns the original angle; refraction into an equal index changes nothing; refraction is odd and strictly increasing where defined.", "quantifier": "every angle in [-pi/2, pi/2], every pair of positive indices", "why_tests_cant": "The claim ranges over a continuum of real inputs; a finite set of test points cannot settle it, least of all at the boundary values where branches switch.", "anchors": ["structcol/__init__.py:refraction"]}
{"id": "C03", "title": "normalize returns a unit vector in the same direction, column by column", "statement": "normalize(x, y, z) returns at each position a positive multiple of the input vector with norm 1 when the input vector is not zero; for the zero vector it returns NaN in all components with return_nan=True and the zero vector with return_nan=False; the result for one column never depends on the other columns.", "quantifier": "every batch size, every real vector, including batches mixing zero and non-zero vectors", "why_tests_cant": "The claim ranges over every array size and content; tests fix a handful of shapes and seeds.", "anchors": ["structcol/__init__.py:normalize"]}
{"id": "C04", "title": "select_events picks, for each trajectory, the value at its own event and zero when there is none", "statement": "For a (nevents, ntraj) array and event numbers between 0 and nevents, select_events returns an array of length ntraj whose j-th entry is the array's value for event events[j] (event e is stored in row e-1) of trajectory j when events[j] > 0 and 0 otherwise; the 3D form does the same for each coordinate; an event number above nevents is an IndexError, never a silently wrong value.", "quantifier": "every array shape, every array content, every event array", "why_tests_cant": "The claim ranges over every array size and content; tests fix a handful of shapes and seeds.", "anchors": ["structcol/__init__.py:select_events"]}
{"id": "C05", "title": "Fresnel reflectances and transmittances are fractions that add up to one", "statement": "For positive real indices and incidence angles in [0, pi/2], both polarisations returned by fresnel_reflection and fresnel_transmission lie in [0, 1], and reflection plus transmission is 1 for each polarisation.", "quantifier": "every pair of positive indices, every angle in [0, pi/2]", "why_tests_cant": "The claim ranges over a continuum of real inputs; a finite set of test points cannot settle it, least of all at the boundary values where branches switch.", "anchors": ["structcol/model.py:fresnel_reflection", "structcol/model.py:fresnel_transmission"]}
{"id": "C06", "title": "total internal reflection is total and occurs exactly beyond the critical angle; angles above 90 degrees are rejected", "statement": "fresnel_reflection raises ValueError when any angle exceeds pi/2 and not otherwise; below that, both polarisations are 1 whenever n2 < n1 and n1*sin(angle) >= n2, and if n1*sin(angle) < n2 and angle < pi/2 both are strictly below 1.", "quantifier": "every array of angles in [0, infinity), every pair of positive indices", "why_tests_cant": "The claim ranges over a continuum of real inputs; a finite set of test points cannot settle it, least of all at the boundary values where branches switch.", "anchors": ["structcol/model.py:fresnel_reflection"]}
{"id": "C07", "title": "Fresnel special cases: index matching, normal incidence, Brewster angle, grazing incidence, reciprocity", "statement": "Equal indices give zero reflection at every angle below pi/2; at normal incidence both polarisations reflect ((n1-n2)/(n1+n2))^2; the parallel polarisation vanishes exactly at tan(angle)=n2/n1; at grazing incidence everything is reflected when the indices differ; and the reflectance from 1 to 2 at an angle equals that from 2 to 1 at the refracted angle.", "quantifier": "every pair of positive indices, every angle in [0, pi/2)", "why_tests_cant": "The claim ranges over a continuum of real inputs; a finite set of test points cannot settle it, least of all at the boundary values where branches switch.", "anchors": ["structcol/model.py:fresnel_reflection", "structcol/__init__.py:refraction"]}
{"id": "C08", "title": "the two-interface pass fraction is a fraction, vanishes on total internal reflection, and does not depend on direction of traversal", "statement": "fresnel_pass_frac returns for each trajectory a value in [0, 1]; it is 0 when the ray is totally internally reflected at either interface; with one interface (n_inside=None) it is the mean Fresnel transmittance up to the 1e-9 regulariser; and it differs from the exact sum of the infinite internal reflection series T1*T2*(1+R1R2+(R1R2)^2+...) by at most the regulariser's effect.", "quantifier": "every triple of positive indices and every incidence angle in [0, pi/2]", "why_tests_cant": "The claim ranges over a continuum of real inputs; a finite set of test points cannot settle it, least of all at the boundary values where branches switch.", "anchors": ["structcol/detector.py:fresnel_pass_frac"]}
{"id": "C09", "title": "every trajectory has exactly one outcome", "statement": "For every table of exit flags in which no event is flagged in both directions, exactly one of the reflected, transmitted and stuck event numbers returned by find_event_indices is non-zero for each trajectory; the stuck number, when non-zero, is the number of events.", "quantifier": "every number of events >= 1, every number of trajectories, every exit table", "why_tests_cant": "The claim is about every history of scattering events and every batch of trajectories, of any length; a seeded simulation explores a vanishing fraction of them.", "anchors": ["structcol/detector.py:find_event_indices"]}
{"id": "C10", "title": "the reported exit is the first exit", "statement": "The reflected (transmitted) event number is the first event flagged as an exit in that direction, no event before it is flagged in either direction, and a trajectory is stuck only if it never exits; the tir event number is the first tir event, or 0 if none.", "quantifier": "every exit table of any size", "why_tests_cant": "The claim is about every history of scattering events and every batch of trajectories, of any length; a seeded simulation explores a vanishing fraction of them.", "anchors": ["structcol/detector.py:find_event_indices"]}
{"id": "C11", "title": "film exits: unfolded crossings are attributed to the physical face that was crossed", "statement": "In a film of positive thickness, a trajectory whose vertical position is unfolded through the faces (periodic images) is flagged with an exit only at an event at which it leaves its current copy of the film; if it leaves upward from an even copy or downward from an odd copy the exit is transmission, otherwise reflection; a trajectory that starts inside the film and leaves through z > thickness is never flagged reflected and one that leaves through z < 0 never transmitted.", "quantifier": "every film thickness, every vertical path of any length, every direction history", "why_tests_cant": "The claim is about every history of scattering events and every batch of trajectories, of any length; a seeded simulation explores a vanishing fraction of them.", "anchors": ["structcol/detector.py:find_valid_exits"]}
{"id": "C12", "title": "film exits: the flags are exclusive and an exit needs a direction inside the critical cone", "statement": "For n_medium <= n_sample no event is flagged both as exit and as total internal reflection, nor as exit in both directions; every exit flag occurs at an event whose direction satisfies n_sample*sin(angle) < n_medium, and every tir flag at one where n_sample*sin(angle) >= n_medium.", "quantifier": "every pair of indices with n_medium <= n_sample, all positions and directions", "why_tests_cant": "The claim is about every history of scattering events and every batch of trajectories, of any length; a seeded simulation explores a vanishing fraction of them.", "anchors": ["structcol/detector.py:find_valid_exits"]}
{"id": "C13", "title": "light can leave a film into a medium of higher index", "statement": "If n_medium > n_sample there is no total internal reflection inside the sample, so an event at which the trajectory crosses a face must be flagged as an exit.", "quantifier": "every pair of indices with n_medium > n_sample", "why_tests_cant": "The claim ranges over a continuum of real inputs; a finite set of test points cannot settle it, least of all at the boundary values where branches switch.", "anchors": ["structcol/detector.py:find_valid_exits"]}
{"id": "C14", "title": "outcome weights conserve the incident energy", "statement": "For every trajectory the reflected, transmitted, stuck and absorbed weights returned by calc_outcome_weights add up to the incident fraction; all four are non-negative when weights lie in [0,1] and outcomes are exclusive; the absorbed weight is zero when nothing is absorbed; a warning is given exactly if at least a fifth of the entering light is stuck.", "quantifier": "every batch, every weight history with values in [0,1], every index array produced by find_event_indices", "why_tests_cant": "The claim is about every history of scattering events and every batch of trajectories, of any length; a seeded simulation explores a vanishing fraction of them.", "anchors": ["structcol/detector.py:calc_outcome_weights"]}
{"id": "C15", "title": "film reflectance and transmittance are fractions whose sum does not exceed one", "statement": "calc_refl_trans for a film returns reflectance >= 0, transmittance >= 0 and reflectance + transmittance <= 1, for every detection angle.", "quantifier": "every batch of trajectories with non-increasing weights in [0,1], every indices, every detection angle in [0, pi/2]; at least one outcome known", "why_tests_cant": "The claim is about every history of scattering events and every batch of trajectories, of any length; a seeded simulation explores a vanishing fraction of them.", "anchors": ["structcol/detector.py:calc_refl_trans", "structcol/detector.py:fresnel_correct_exit", "structcol/detector.py:detect_corrected_traj", "structcol/detector.py:distribute_ambig_traj_weights"]}
{"id": "C16", "title": "no light is lost: R + T = 1 for a lossless film and R + T = 1 - A in general", "statement": "With a full-hemisphere detection angle (pi/2), and no goniometer detector, reflectance plus transmittance computed for a film equals one when no trajectory weight is absorbed, and in general equals one minus the absorbed fraction corrected for internally reflected light.", "quantifier": "every batch of trajectories, all indices", "why_tests_cant": "The claim is about every history of scattering events and every batch of trajectories, of any length; a seeded simulation explores a vanishing fraction of them.", "anchors": ["structcol/detector.py:calc_refl_trans"]}
{"id": "C17", "title": "reflectance and transmittance grow with the detection angle", "statement": "For the same trajectories, enlarging the detection angle never decreases the reflectance or the transmittance.", "quantifier": "every batch, every pair of detection angles", "why_tests_cant": "The claim is about every history of scattering events and every batch of trajectories, of any length; a seeded simulation explores a vanishing fraction of them.", "anchors": ["structcol/detector.py:detect_correct", "structcol/detector.py:detect_corrected_traj", "structcol/detector.py:distribute_ambig_traj_weights"]}
{"id": "C18", "title": "film results are numbers", "statement": "calc_refl_trans returns finite reflectance and transmittance for every batch of trajectories with finite weights.", "quantifier": "every batch, including batches in which every trajectory is stuck", "why_tests_cant": "The claim is about every history of scattering events and every batch of trajectories, of any length; a seeded simulation explores a vanishing fraction of them.", "anchors": ["structcol/detector.py:fresnel_correct_exit"]}
{"id": "C19", "title": "re-running internally reflected light terminates and respects max_call_depth", "statement": "With run_fresnel_traj=True, calc_refl_trans terminates, making at most max_call_depth nested re-runs, and stops as soon as the undecided weight is at most max_stuck.", "quantifier": "every random stream, every batch, every max_call_depth and max_stuck", "why_tests_cant": "The claim must hold for every stream the random generator could deliver; a test sees one seed.", "anchors": ["structcol/detector.py:calc_refl_trans", "structcol/detector.py:run_sphere_fresnel_traj"]}
{"id": "C20", "title": "re-running internally reflected light conserves energy", "statement": "Reflectance plus transmittance accumulated over all recursive re-runs is at most one for a sphere, whatever directions and steps are drawn, and each re-run adds at most the weight that was undecided.", "quantifier": "every random stream, every recursion depth", "why_tests_cant": "The claim must hold for every stream the random generator could deliver; a test sees one seed.", "anchors": ["structcol/detector.py:calc_refl_trans", "structcol/detector.py:run_sphere_fresnel_traj"]}
{"id": "C21", "title": "the sphere exit point lies on the sphere, on the trajectory segment", "statement": "For a start point inside the sphere and an end point outside, find_vec_sphere_intersect returns a point at distance radius from the centre, on the segment between the two points; when the line misses the sphere it returns the zero vector.", "quantifier": "every radius > 0, every pair of points inside/outside", "why_tests_cant": "The claim ranges over a continuum of real inputs; a finite set of test points cannot settle it, least of all at the boundary values where branches switch.", "anchors": ["structcol/detector.py:find_vec_sphere_intersect"]}
{"id": "C22", "title": "internal reflection is a mirror reflection", "statement": "rotate_reflect about a unit normal preserves the length, reverses the normal component, keeps the tangential component, and applied twice is the identity.", "quantifier": "every direction and unit normal", "why_tests_cant": "The claim ranges over a continuum of real inputs; a finite set of test points cannot settle it, least of all at the boundary values where branches switch.", "anchors": ["structcol/detector.py:rotate_reflect"]}
{"id": "C23", "title": "rotate_refract is a rotation about the given axis", "statement": "For a unit axis, rotate_refract preserves lengths and the component along the axis, does not depend on the anchor point, composes additively in the angle, and turns a vector perpendicular to the axis by exactly the angle.", "quantifier": "every unit axis, anchor, vector and angle", "why_tests_cant": "The claim ranges over a continuum of real inputs; a finite set of test points cannot settle it, least of all at the boundary values where branches switch.", "anchors": ["structcol/detector.py:rotate_refract"]}
{"id": "C24", "title": "the direction leaving a spherical boundary obeys Snell's law", "statement": "exit_kz gives the z-component of the unit direction refracted at the sphere surface: in the plane of incidence and at the Snell angle to the outward normal.", "quantifier": "every exit point and direction, every pair of indices without total internal reflection", "why_tests_cant": "The claim ranges over a continuum of real inputs; a finite set of test points cannot settle it, least of all at the boundary values where branches switch.", "anchors": ["structcol/detector.py:exit_kz", "structcol/detector.py:rotate_refract"]}
{"id": "C25", "title": "the direction leaving a film toward a detector obeys Snell's law", "statement": "calc_refracted_direction returns a unit vector pointing toward -z whose tangential part is parallel to the incoming one and scaled by n1/n2, for every non-normal direction below the critical angle.", "quantifier": "every unit direction with |kz|<1, every pair of indices without total internal reflection", "why_tests_cant": "The claim ranges over a continuum of real inputs; a finite set of test points cannot settle it, least of all at the boundary values where branches switch.", "anchors": ["structcol/detector.py:calc_refracted_direction"]}
{"id": "C26", "title": "goniometer detection only removes trajectories", "statement": "calc_indices_detected returns for each trajectory either its exit event or 0; a kept trajectory's refracted ray meets the detection hemisphere strictly inside the detector's square on the reflection side; for a photon leaving at the centre of the detection hemisphere, a detector on the surface normal that detects it still detects it when its side is enlarged.", "quantifier": "every batch and every detector geometry", "why_tests_cant": "The claim ranges over every array size and content; tests fix a handful of shapes and seeds.", "anchors": ["structcol/detector.py:calc_indices_detected"]}
{"id": "C27", "title": "angles to a film normal do not depend on the side of exit", "statement": "For a film, get_angles returns an angle in [0, pi/2] that depends only on |kz| and whose cosine is |kz|; a trajectory with no event gets pi/2.", "quantifier": "every kz in [-1,1], every batch", "why_tests_cant": "The claim ranges over a continuum of real inputs; a finite set of test points cannot settle it, least of all at the boundary values where branches switch.", "anchors": ["structcol/detector.py:get_angles"]}
{"id": "C28", "title": "haze is a fraction", "statement": "calc_haze returns a value in [0,1] for non-negative per-trajectory transmittances that sum to a positive transmittance, is non-increasing in the cutoff angle, is 0 if everything leaves below the cutoff and 1 if nothing does.", "quantifier": "every batch, every cutoff angle", "why_tests_cant": "The claim ranges over every array size and content; tests fix a handful of shapes and seeds.", "anchors": ["structcol/detector.py:calc_haze"]}
{"id": "C29", "title": "goniometer renormalisation is linear and unit free", "statement": "normalize_refl_goniometer is linear in the reflectance, invariant when distance and side are scaled together, and returns the reflectance itself for a detector whose projected area equals the hemisphere's.", "quantifier": "all real inputs with positive lengths", "why_tests_cant": "The claim ranges over a continuum of real inputs; a finite set of test points cannot settle it, least of all at the boundary values where branches switch.", "anchors": ["structcol/detector.py:normalize_refl_goniometer"]}
{"id": "C30", "title": "calculating reflectance does not alter the caller's trajectories", "statement": "calc_refl_trans never modifies the position, direction or weight of the Trajectory object passed in, even in goniometer mode, where positions and directions are flipped internally.", "quantifier": "every call, every aliasing of the arrays", "why_tests_cant": "The claim is about every history of scattering events and every batch of trajectories, of any length; a seeded simulation explores a vanishing fraction of them.", "anchors": ["structcol/detector.py:set_up_values", "structcol/detector.py:shift_traj_tir", "structcol/detector.py:calc_refl_trans"]}
{"id": "C31", "title": "absorption: weights decay with path length and never grow", "statement": "After absorb, the weight of event i is the initial weight times exp(-mu_abs * path length up to event i); weights stay in [0,1] if they started there, never increase along a trajectory, are unchanged when mu_abs is 0, and absorbing with two coefficients in turn equals absorbing with their sum.", "quantifier": "every step history of non-negative steps, every mu_abs >= 0", "why_tests_cant": "The claim is about every history of scattering events and every batch of trajectories, of any length; a seeded simulation explores a vanishing fraction of them.", "anchors": ["structcol/montecarlo.py:Trajectory.absorb"]}
{"id": "C32", "title": "scattering keeps directions unit vectors and turns them by exactly the sampled angle", "statement": "After scatter every direction has norm 1 if the initial one has and the supplied sines/cosines are consistent; the cosine of the angle between consecutive directions is the supplied costheta; the first direction is unchanged; calling scatter again with the same angles changes nothing.", "quantifier": "every number of events, every angle history, including directions along the z axis", "why_tests_cant": "The claim is about every history of scattering events and every batch of trajectories, of any length; a seeded simulation explores a vanishing fraction of them.", "anchors": ["structcol/montecarlo.py:Trajectory.scatter"]}
{"id": "C33", "title": "move advances each photon by its step along its direction", "statement": "After move, consecutive positions differ by the step times the direction, so distances equal the steps for unit directions, the first position is unchanged, every position is at most the path length away from the first, and repeating move with the same steps changes nothing.", "quantifier": "every number of events, every step and direction history", "why_tests_cant": "The claim is about every history of scattering events and every batch of trajectories, of any length; a seeded simulation explores a vanishing fraction of them.", "anchors": ["structcol/montecarlo.py:Trajectory.move"]}
{"id": "C34", "title": "sampled steps are valid path lengths", "statement": "sample_step returns finite non-negative steps for every random draw in [0,1) and positive mu_scat, longer for larger draws and shorter for larger mu_scat, raises ValueError exactly when fine_roughness is outside [0,1], and roughness changes only the first step of the first round(ntraj*fine_roughness) trajectories.", "quantifier": "every random stream, every mu, every batch shape", "why_tests_cant": "The claim must hold for every stream the random generator could deliver; a test sees one seed.", "anchors": ["structcol/montecarlo.py:sample_step"]}
{"id": "C35", "title": "sampled scattering angles come from the grid with consistent sines and cosines", "statement": "sample_angles returns nevents-1 angles per trajectory; every theta is one of the tabulated angles in [min_angle, pi], every phi lies in [0, 2*pi) (or on the phi grid up to 2*pi for a two-dimensional phase function), the returned sines and cosines belong to those angles, and the sampling weights used are non-negative and sum to 1.", "quantifier": "every random stream, every non-negative phase function with positive weight", "why_tests_cant": "The claim must hold for every stream the random generator could deliver; a test sees one seed.", "anchors": ["structcol/montecarlo.py:sample_angles"]}
{"id": "C36", "title": "initial photons for a film are unit vectors inside the illumination spot, pointing into the sample and refracted by Snell's law", "statement": "initialize with boundary='film' starts every photon at z=0 inside the requested square spot, with weight 1 and a unit direction with kz >= 0; the transverse direction is n_medium/n_sample times the incident one.", "quantifier": "every random stream, every incidence range in [0, pi/2], every pair of indices without total internal reflection", "why_tests_cant": "The claim must hold for every stream the random generator could deliver; a test sees one seed.", "anchors": ["structcol/montecarlo.py:initialize"]}
{"id": "C37", "title": "initial photons for a sphere start on its illuminated surface and are refracted by Snell's law at the local normal", "statement": "initialize with boundary='sphere' starts every photon on the surface of the sphere, on the lower (illuminated) hemisphere, with a unit direction whose angle to the inward normal obeys Snell's law.", "quantifier": "every random stream, every sphere diameter, every pair of indices", "why_tests_cant": "The claim must hold for every stream the random generator could deliver; a test sees one seed.", "anchors": ["structcol/montecarlo.py:initialize"]}
{"id": "C38", "title": "initialize validates its geometry arguments", "statement": "initialize raises ValueError when boundary='sphere' without a sample diameter, when boundary='film' with one, when for a film user-supplied angle arrays have the wrong length, or when coarse roughness is requested for a sphere; for those two boundaries it succeeds in all other cases, and every other boundary name is an error.", "quantifier": "all combinations of the geometry arguments", "why_tests_cant": "The claim ranges over every array size and content; tests fix a handful of shapes and seeds.", "anchors": ["structcol/montecarlo.py:initialize"]}
{"id": "C39", "title": "scattering coefficients are non-negative and scale with number density", "statement": "calc_scat's number density for one species is volume_fraction / particle volume, for two species the concentrations weight the volumes (volume fractions of the species add up to the total), for any admissible concentrations including exactly [1,0]; mu_scat is non-negative for non-negative cross sections and proportional to the density.", "quantifier": "every volume fraction in [0,1], radii > 0, concentrations summing to 1", "why_tests_cant": "The claim ranges over a continuum of real inputs; a finite set of test points cannot settle it, least of all at the boundary values where branches switch.", "anchors": ["structcol/montecarlo.py:calc_scat"]}
{"id": "C40", "title": "the phase function is a probability distribution", "statement": "phase_function returns non-negative values that sum to 1 whenever the differential cross sections are non-negative and not all zero.", "quantifier": "every grid of angles, every non-negative cross section", "why_tests_cant": "The claim ranges over every array size and content; tests fix a handful of shapes and seeds.", "anchors": ["structcol/montecarlo.py:phase_function"]}
{"id": "C41", "title": "coarse roughness: entering directions are unit vectors refracted at the local facet", "statement": "coarse_roughness_enter returns unit directions inside the sample at the Snell angle from the local facet normal and inside the plane of incidence; it rejects the sphere boundary.", "quantifier": "every facet angle and azimuth, every incident direction, every pair of indices", "why_tests_cant": "The claim must hold for every stream the random generator could deliver; a test sees one seed.", "anchors": ["structcol/montecarlo.py:coarse_roughness_enter"]}
{"id": "C42", "title": "polarised fields stay normalised and transverse bookkeeping is correct", "statement": "After calc_fields every event's field has unit norm whatever the scattering history, or is exactly zero if the scattered field vanishes; under normal incidence it is perpendicular to the direction of propagation that scatter computes from the same angles; the local field is multiplied by the amplitude scattering matrix at each event; and the optical phase accumulated by an event is k times the path length.", "quantifier": "every scattering history", "why_tests_cant": "The claim is about every history of scattering events and every batch of trajectories, of any length; a seeded simulation explores a vanishing fraction of them.", "anchors": ["structcol/montecarlo.py:Trajectory.calc_fields"]}
{"id": "C43", "title": "event distributions account for all light", "statement": "calc_refl_trans_event distributes per-trajectory weights over event numbers: each trajectory contributes to exactly the bin of its own exit event, so the bins sum to the total of the contributions, and bin 0 holds the light reflected at the first surface.", "quantifier": "every batch, every index array within range", "why_tests_cant": "The claim ranges over every array size and content; tests fix a handful of shapes and seeds.", "anchors": ["structcol/event_distribution.py:calc_refl_trans_event"]}
{"id": "C44", "title": "per-trajectory event tables are consistent with the per-trajectory totals", "statement": "calc_refl_trans_event_traj returns for each trajectory a row of per-event weights that sum to the weight passed in for that trajectory.", "quantifier": "every batch", "why_tests_cant": "The claim ranges over every array size and content; tests fix a handful of shapes and seeds.", "anchors": ["structcol/event_distribution.py:calc_refl_trans_event_traj"]}
{"id": "C45", "title": "scattering-number distributions are probability distributions", "statement": "calc_pdf_scat returns non-negative distributions summing to 1 whenever some light is reflected (transmitted).", "quantifier": "every event distribution with positive total", "why_tests_cant": "The claim ranges over every array size and content; tests fix a handful of shapes and seeds.", "anchors": ["structcol/event_distribution.py:calc_pdf_scat"]}
{"id": "C46", "title": "Fresnel-reflected light is redistributed over later events without loss", "statement": "calc_refl_event_fresnel_pdf adds light only to bins within the returned array, and the total it returns equals the directly reflected light plus refl_frac times the light sent back at the front plus trans_frac times the light sent back at the back, when the pdfs sum to 1.", "quantifier": "every batch size, every pdf, every index array", "why_tests_cant": "The claim ranges over every array size and content; tests fix a handful of shapes and seeds.", "anchors": ["structcol/event_distribution.py:calc_refl_event_fresnel_pdf", "structcol/event_distribution.py:calc_refl_event_fresnel_avg"]}
{"id": "C47", "title": "total internal reflection tallies cover every event", "statement": "calc_tir attributes each reflected trajectory's weight to the tir tallies according to whether it was totally internally reflected before its exit, for exits at any event from 1 to nevents.", "quantifier": "every batch, every tir history", "why_tests_cant": "The claim is about every history of scattering events and every batch of trajectories, of any length; a seeded simulation explores a vanishing fraction of them.", "anchors": ["structcol/event_distribution.py:calc_tir"]}
{"id": "C48", "title": "path lengths are non-negative, additive and non-decreasing in the exit event", "statement": "calc_path_length returns, for each event number, the accumulated step length up to that event; it is non-negative and non-decreasing.", "quantifier": "every step history", "why_tests_cant": "The claim is about every history of scattering events and every batch of trajectories, of any length; a seeded simulation explores a vanishing fraction of them.", "anchors": ["structcol/event_distribution.py:calc_path_length"]}
{"id": "C49", "title": "Maxwell-Garnett effective index interpolates between matrix and particle", "statement": "n_eff(..., maxwell_garnett=True) for real positive indices and volume fraction in [0,1] returns n_matrix at 0, n_particle at 1, n when both are n, and always a value between the two indices, monotone in the volume fraction.", "quantifier": "every pair of positive indices, every volume fraction in [0,1]", "why_tests_cant": "The claim ranges over a continuum of real inputs; a finite set of test points cannot settle it, least of all at the boundary values where branches switch.", "anchors": ["structcol/refractive_index.py:n_eff"]}
{"id": "C50", "title": "the Bruggeman residual is conservative", "statement": "For two-component and layered inputs, the Bruggeman equation solved by n_eff is satisfied by the common index when all indices are equal, by the matrix index at volume fraction 0 and, for real indices, its solution lies between the smallest and largest index.", "quantifier": "every list of real positive indices, every volume fractions summing to at most 1", "why_tests_cant": "The claim ranges over a continuum of real inputs; a finite set of test points cannot settle it, least of all at the boundary values where branches switch.", "anchors": ["structcol/refractive_index.py:n_eff"]}
{"id": "C51", "title": "n_eff validates lengths and physical sign", "statement": "n_eff raises ValueError when the numbers of indices and volume fractions differ, when multilayer input is used with maxwell_garnett, and when the solved index has negative imaginary part; otherwise it returns a value.", "quantifier": "every input lengths", "why_tests_cant": "The claim ranges over every array size and content; tests fix a handful of shapes and seeds.", "anchors": ["structcol/refractive_index.py:n_eff"]}
{"id": "C52", "title": "Cargille oils follow the three-coefficient Cauchy law and bad arguments are rejected", "statement": "n_cargille(i, series, w) evaluates c + d/w^2 + e/w^4 with the i-th coefficient of the named series, and raises ValueError for every cardinal number or series that is not tabulated.", "quantifier": "every integer i, every series name, every wavelength", "why_tests_cant": "The claim ranges over a continuum of real inputs; a finite set of test points cannot settle it, least of all at the boundary values where branches switch.", "anchors": ["structcol/refractive_index.py:n_cargille"]}
{"id": "C53", "title": "material lookup is total on known materials and rejects the rest", "statement": "n(material, wavelength) returns the dispersion formula's value for every tabulated material, requires both data arrays for 'data', and raises KeyError for unknown materials; 'vacuum' has index 1 at every wavelength.", "quantifier": "every string, every wavelength", "why_tests_cant": "The claim ranges over every array size and content; tests fix a handful of shapes and seeds.", "anchors": ["structcol/refractive_index.py:n"]}
{"id": "C54", "title": "structure factors are physical", "statement": "factor_poly is never negative; factor_py is 1 at zero volume fraction; factor_para lies between (1-r)/(1+r) and (1+r)/(1-r) for its damping r in [0,1) and is never negative.", "quantifier": "every wavevector, volume fraction, polydispersity", "why_tests_cant": "The claim ranges over a continuum of real inputs; a finite set of test points cannot settle it, least of all at the boundary values where branches switch.", "anchors": ["structcol/structure.py:factor_py", "structcol/structure.py:factor_para", "structcol/structure.py:factor_poly"]}
{"id": "C55", "title": "tabulated structure factors are interpolated between neighbouring data and held constant outside", "statement": "factor_data returns the data value at each tabulated point, lies between neighbouring data values in between, and outside the table returns the value of the nearest end point; a table that is empty or whose columns differ in length is rejected.", "quantifier": "every strictly increasing table, every query", "why_tests_cant": "The claim ranges over a continuum of real inputs; a finite set of test points cannot settle it, least of all at the boundary values where branches switch.", "anchors": ["structcol/structure.py:factor_data"]}
{"id": "C56", "title": "single-scattering reflectance obeys the Beer-Lambert law", "statement": "In reflection, the attenuation factor lies in [0,1], grows with thickness, and tends to the semi-infinite limit; the returned unpolarised reflectance is the mean of the two polarised ones.", "quantifier": "every total cross section, number density and thickness", "why_tests_cant": "The claim ranges over a continuum of real inputs; a finite set of test points cannot settle it, least of all at the boundary values where branches switch.", "anchors": ["structcol/model.py:reflection"]}
{"id": "C57", "title": "core-shell volume fractions partition the particle volume", "statement": "For every increasing list of radii the layer volume fractions derived in reflection (and calc_scat) are positive and sum to the given volume fraction.", "quantifier": "every number of layers, every increasing radii", "why_tests_cant": "The claim ranges over every array size and content; tests fix a handful of shapes and seeds.", "anchors": ["structcol/model.py:reflection"]}
{"id": "C58", "title": "the polydisperse size distribution is normalised", "statement": "size_distribution returns weights that are non-negative and whose trapezoid integral over the diameter range is 1, for both the Schulz and the Gaussian branch.", "quantifier": "every diameter grid, mean and width", "why_tests_cant": "The claim ranges over a continuum of real inputs; a finite set of test points cannot settle it, least of all at the boundary values where branches switch.", "anchors": ["structcol/model.py:size_distribution", "structcol/phase_func_sphere.py:size_distribution"]}
{"id": "C59", "title": "cross sections are linear and non-negative", "statement": "_integrate_cross_section is linear in the cross section and non-negative for non-negative integrands on [0, pi].", "quantifier": "every increasing angle grid in [0, pi]", "why_tests_cant": "The claim ranges over every array size and content; tests fix a handful of shapes and seeds.", "anchors": ["structcol/model.py:_integrate_cross_section"]}
{"id": "C60", "title": "invalid combinations of form and structure models are rejected", "statement": "differential_cross_section and reflection raise an error for every combination of form_type and structure_type that is not supported and for polydisperse calls lacking parameters, and never fail for supported ones because of an undefined variable.", "quantifier": "every combination of the type arguments and flags", "why_tests_cant": "The claim ranges over every array size and content; tests fix a handful of shapes and seeds.", "anchors": ["structcol/model.py:differential_cross_section", "structcol/model.py:reflection"]}
{"id": "C61", "title": "reflected intensities of fields are non-negative and add up incoherently", "statement": "calc_refl_phase_fields returns non-negative intensities; without phase the total equals the sum of per-trajectory intensities; the coherent intensity never exceeds the number of reflected trajectories times the incoherent one.", "quantifier": "every batch of complex fields", "why_tests_cant": "The claim ranges over every array size and content; tests fix a handful of shapes and seeds.", "anchors": ["structcol/detector_polarization_phase.py:calc_refl_phase_fields"]}
{"id": "C62", "title": "co- and cross-polarised intensities partition the reflected field", "statement": "calc_refl_co_cross_fields rotates fields into the detector frame without changing total intensity: co + cross + longitudinal equals the total reflected intensity.", "quantifier": "every batch of complex fields and directions", "why_tests_cant": "The claim ranges over every array size and content; tests fix a handful of shapes and seeds.", "anchors": ["structcol/detector_polarization_phase.py:calc_refl_co_cross_fields"]}
{"id": "C63", "title": "trajectory times are non-negative and zero for trajectories that do not exit", "statement": "calc_traj_time returns 0 for trajectories that do not exit in the chosen direction and otherwise path length times index over c plus the dwell time in a particle; it is never negative and does not decrease with the exit event.", "quantifier": "every step history, every exit index", "why_tests_cant": "The claim is about every history of scattering events and every batch of trajectories, of any length; a seeded simulation explores a vanishing fraction of them.", "anchors": ["structcol/detector_polarization_phase.py:calc_traj_time"]}
{"id": "C64", "title": "bulk parameters derived from a sphere simulation are physical", "statement": "calc_mu_scat_abs returns non-negative scattering and absorption coefficients that vanish with the volume fraction and count every trajectory's energy once with the same normalising cross-section.", "quantifier": "every batch of per-trajectory results", "why_tests_cant": "The claim is about every history of scattering events and every batch of trajectories, of any length; a seeded simulation explores a vanishing fraction of them.", "anchors": ["structcol/phase_func_sphere.py:calc_mu_scat_abs"]}
{"id": "C65", "title": "calc_pdf does not modify the caller's results", "statement": "calc_pdf leaves the refl_indices and trans_indices arrays passed by the caller unchanged.", "quantifier": "every call", "why_tests_cant": "Aliasing effects appear only for particular index contents; tests that build fresh arrays for each call never see them.", "anchors": ["structcol/phase_func_sphere.py:calc_pdf"]}
{"id": "C66", "title": "the list of sphere diameters has the requested length and is centred on the mean", "statement": "calc_diam_list returns num_diam diameters, strictly increasing, containing the mean diameter.", "quantifier": "every num_diam, every normalised distribution", "why_tests_cant": "The claim ranges over every array size and content; tests fix a handful of shapes and seeds.", "anchors": ["structcol/phase_func_sphere.py:calc_diam_list"]}
{"id": "C67", "title": "sampled sphere diameters and concentrations come from the given lists with weights summing to one", "statement": "sample_diams and sample_concentration return one entry per sphere slot, each drawn from the given list, using non-negative probabilities that sum to 1.", "quantifier": "every random stream, every list", "why_tests_cant": "The claim must hold for every stream the random generator could deliver; a test sees one seed.", "anchors": ["structcol/phase_func_sphere.py:sample_diams", "structcol/phase_func_sphere.py:sample_concentration"]}
{"id": "C68", "title": "correcting for total internal reflection leaves trajectories without it unchanged", "statement": "In goniometer mode the positions and directions of a trajectory are mirrored only after an event at which it is totally internally reflected; a trajectory that is never totally internally reflected is left as it is, and distances and direction components keep their size.", "quantifier": "every trajectory, every total internal reflection event index", "why_tests_cant": "The claim is about every history of scattering events and every batch of trajectories, of any length; a seeded simulation explores a vanishing fraction of them.", "anchors": ["structcol/detector.py:shift_traj_tir", "structcol/detector.py:select_tir_traj"]}
{"id": "C69", "title": "infinite coordinates are replaced by large finite ones before intersections are computed", "statement": "After inf_to_large no coordinate of the two points is infinite: an infinite coordinate becomes 100 radii on the side it was on, and finite coordinates within 1e20 radii are unchanged.", "quantifier": "every pair of points with coordinates in the extended reals", "why_tests_cant": "Infinite coordinates arise only for particular random step draws (steps of infinite length when mu_scat is 0); tests with a few seeds do not meet them in every coordinate.", "anchors": ["structcol/detector.py:inf_to_large"]}
{"id": "C70", "title": "the Fresnel fraction on entering a sphere is computed at the angle of incidence", "statement": "For a photon entering a spherical sample, the angle used for the fraction of light reflected at first incidence is the angle in the outside medium between the incident ray and the local normal.", "quantifier": "every entry point on the sphere, every incident direction, every pair of indices", "why_tests_cant": "The claim ranges over a continuum of real inputs; a finite set of test points cannot settle it, least of all at the boundary values where branches switch.", "anchors": ["structcol/detector.py:get_angles", "structcol/detector.py:fresnel_pass_frac", "structcol/detector.py:calc_refl_trans"]}
{"id": "C71", "title": "scattering angles are sampled in proportion to the light scattered into the solid angle they represent", "statement": "The probability with which sample_angles draws a direction (theta, or the pair theta, phi) is proportional to the phase function there times sin(theta).", "quantifier": "every phase function of one or two angles", "why_tests_cant": "The claim ranges over a continuum of real inputs; a finite set of test points cannot settle it, least of all at the boundary values where branches switch.", "anchors": ["structcol/montecarlo.py:sample_angles"]}
{"id": "C72", "title": "user-supplied index data are interpolated at the wavelength asked for", "statement": "n('data', wavelength, index_data, wavelength_data) returns the datum at each tabulated wavelength, the linear interpolation between the neighbouring data in between, and raises ValueError outside the table.", "quantifier": "every table with increasing wavelengths, in any unit, and every wavelength", "why_tests_cant": "The claim ranges over a continuum of real inputs; a finite set of test points cannot settle it, least of all at the boundary values where branches switch.", "anchors": ["structcol/refractive_index.py:n"]}
{"id": "C73", "title": "the Percus-Yevick structure factor and the radial distribution function rest on the same fluid", "statement": "factor_py equals 1/(1 - rho*c(q)) for the spherical Fourier transform c(q) of the direct correlation function that radial_dist_py uses; it tends to the Percus-Yevick compressibility (1-phi)^4/(1+2 phi)^2 as q goes to 0 and to 1 as q goes to infinity.", "quantifier": "every wavevector other than zero, every volume fraction in [0,1)", "why_tests_cant": "The claim ranges over a continuum of real inputs; a finite set of test points cannot settle it, least of all at the boundary values where branches switch.", "anchors": ["structcol/structure.py:factor_py", "structcol/structure.py:cc", "structcol/structure.py:radial_dist_py"]}
{"id": "C74", "title": "a mixture's structure factor does not depend on how the mixture is described", "statement": "factor_poly gives the same result when a species is listed as two identical species sharing its concentration, when an absent species (concentration 0) is added in either position, and when the two species are listed in the other order; the densities it uses put number densities in the ratio of the concentrations and volume fractions that add up to the total.", "quantifier": "every wavevector, volume fraction, concentrations, diameters and polydispersities", "why_tests_cant": "The claim ranges over a continuum of real inputs; a finite set of test points cannot settle it, least of all at the boundary values where branches switch.", "anchors": ["structcol/structure.py:factor_poly"]}
{"id": "C75", "title": "the single-scattering model integrates over exactly the angles the detector sees", "statement": "In reflection, light scattered inside the sample beyond 90 degrees is integrated over if and only if its direction after refraction into the medium lies between theta_min and theta_max; reflection never fails for light incident from the medium and a detector in the backward half space, and refuses incidence beyond 90 degrees.", "quantifier": "every pair of indices, every detector range between 90 and 180 degrees, every scattering angle", "why_tests_cant": "The claim ranges over a continuum of real inputs; a finite set of test points cannot settle it, least of all at the boundary values where branches switch.", "anchors": ["structcol/model.py:reflection", "structcol/model.py:fresnel_transmission"]}
{"id": "C76", "title": "the number density reproduces the volume fraction", "statement": "The number density reflection uses is the number of particles per volume that, split in the ratio of the concentrations, fills exactly the given volume fraction, for one and for two species and also when one concentration is zero.", "quantifier": "every volume fraction, radii and concentrations", "why_tests_cant": "The claim ranges over a continuum of real inputs; a finite set of test points cannot settle it, least of all at the boundary values where branches switch.", "anchors": ["structcol/model.py:reflection", "structcol/model.py:_number_density"]}
{"id": "C77", "title": "the polydisperse form factor is an average of monodisperse ones", "statement": "polydisperse_form_factor lies between the smallest and the largest form factor of the spheres within its size distributions, for any number of species with concentrations adding up to one.", "quantifier": "every mixture, every form factor", "why_tests_cant": "The claim ranges over every array size and content; tests fix a handful of shapes and seeds.", "anchors": ["structcol/model.py:polydisperse_form_factor", "structcol/model.py:size_distribution"]}
{"id": "C78", "title": "asymmetry parameter and transport length are physical", "statement": "The asymmetry parameter reflection returns lies strictly between -1 and 1 and the transport length is positive, longer than half the scattering length, and the inverse of number density times transport cross section.", "quantifier": "every differential cross section, grid size and number density", "why_tests_cant": "The claim ranges over a continuum of real inputs; a finite set of test points cannot settle it, least of all at the boundary values where branches switch.", "anchors": ["structcol/model.py:reflection"]}
{"id": "C79", "title": "the structure factor is evaluated at the momentum transfer", "statement": "differential_cross_section multiplies the form factor by the structure factor at q d, where q is the length of the difference between scattered and incident wavevectors (at q itself in the polydisperse case), and by 1 if no structure factor is asked for.", "quantifier": "every wavevector, diameter and scattering angle", "why_tests_cant": "The claim ranges over a continuum of real inputs; a finite set of test points cannot settle it, least of all at the boundary values where branches switch.", "anchors": ["structcol/model.py:differential_cross_section"]}
{"id": "C80", "title": "in a mixture every scattering event uses the angle and step of its own sphere type", "statement": "sample_angles_step_poly gives trajectory tr at event ev the scattering angles drawn from the phase function, and the step drawn from the scattering coefficient, of the sphere type drawn for (ev, tr), whatever the mixture.", "quantifier": "every list of sphere parameters, every stream of the generator", "why_tests_cant": "The claim must hold for every stream the random generator could deliver; a test sees one seed.", "anchors": ["structcol/phase_func_sphere.py:sample_angles_step_poly"]}
{"id": "C81", "title": "distance between spheres and place of exit are geometric", "statement": "calc_d_avg returns the diameter of the ball that holds one sphere at the given volume fraction, never less than the sphere diameter; get_exit_pos puts a trajectory that leaves the sphere once on its surface in the direction of the exit normal, and one that does not leave at the centre.", "quantifier": "every volume fraction, radius and exit normal", "why_tests_cant": "The claim ranges over a continuum of real inputs; a finite set of test points cannot settle it, least of all at the boundary values where branches switch.", "anchors": ["structcol/phase_func_sphere.py:calc_d_avg", "structcol/phase_func_sphere.py:get_exit_pos"]}
{"id": "C82", "title": "exit directions are paired with the nearest exit", "statement": "calc_directions returns for every place on the sphere the direction of the trajectory whose exit is nearest to it.", "quantifier": "every set of exits", "why_tests_cant": "The claim ranges over every array size and content; tests fix a handful of shapes and seeds.", "anchors": ["structcol/phase_func_sphere.py:calc_directions"]}
{"id": "C83", "title": "the phase function of a structured sphere is made of exits paired with their own weights", "statement": "calc_pdf feeds the kernel density estimate one cosine per exiting trajectory with that trajectory's own weight, never fails while there is an exit, and the phase function it returns is positive and sums to one on its grid.", "quantifier": "every bundle of exiting trajectories and weights", "why_tests_cant": "The claim ranges over every array size and content; tests fix a handful of shapes and seeds.", "anchors": ["structcol/phase_func_sphere.py:calc_pdf"]}
{"id": "C84", "title": "a photon in a sphere is decided by its first crossing of the surface", "statement": "For a sphere, find_valid_exits and find_event_indices report a photon at the first event after which it is outside: reflected if its refracted z direction is negative, transmitted if positive, totally internally reflected exactly if n_sample sin(theta) exceeds n_medium; a photon that is never outside is stuck and nothing else.", "quantifier": "every number of events, every trajectory, every pair of indices", "why_tests_cant": "The claim ranges over every array size and content; tests fix a handful of shapes and seeds.", "anchors": ["structcol/detector.py:find_valid_exits", "structcol/detector.py:find_event_indices", "structcol/detector.py:exit_kz"]}
{"id": "C85", "title": "light sent back inside a sphere continues from where it met the surface", "statement": "run_sphere_fresnel_traj restarts each photon sent back at the surface at the crossing point, in the mirror direction into the sphere, with the weight it had there; a photon that was stuck continues from where it was.", "quantifier": "every trajectory bundle and boundary", "why_tests_cant": "The claim ranges over every array size and content; tests fix a handful of shapes and seeds.", "anchors": ["structcol/detector.py:run_sphere_fresnel_traj", "structcol/detector.py:rotate_reflect"]}
{"id": "C86", "title": "scattering is computed in the index the caller asks for", "statement": "calc_scat computes relative index, size parameter and wavevector all in the effective index if effective_medium_form, otherwise all in n_matrix, and the structure factor's momentum transfer in the effective index if effective_medium_struct, otherwise in n_matrix; the structure factor's argument is 2|k| sin(theta/2) times the outer diameter.", "quantifier": "every sample, every combination of the two flags, every Mie calculation", "why_tests_cant": "The claim ranges over a continuum of real inputs; a finite set of test points cannot settle it, least of all at the boundary values where branches switch.", "anchors": ["structcol/montecarlo.py:calc_scat", "structcol/model.py:differential_cross_section"]}
{"id": "C87", "title": "fine roughness adds a coefficient and changes nothing else; absorption is that of the sample", "statement": "With fine_roughness > 0 calc_scat returns the same phase function, first scattering coefficient and absorption coefficient as without, plus the scattering coefficient of the bare particles in n_matrix without structure factor, and refuses a missing n_matrix; the absorption coefficient is 4 pi Im(n_sample)/wavelen.", "quantifier": "every sample, roughness fraction and Mie calculation", "why_tests_cant": "The claim ranges over a continuum of real inputs; a finite set of test points cannot settle it, least of all at the boundary values where branches switch.", "anchors": ["structcol/montecarlo.py:calc_scat"]}
{"id": "C88", "title": "incomplete polydisperse samples are refused", "statement": "calc_scat(polydisperse=True) raises ValueError unless radius2, concentration and pdi are given and the particle is homogeneous; otherwise it uses the polydisperse form factor and the polydisperse (or tabulated) structure factor.", "quantifier": "every combination of missing arguments", "why_tests_cant": "the combinations and samples are unbounded; tests try a few", "anchors": ["structcol/montecarlo.py:calc_scat"]}
{"id": "C89", "title": "the total cross section is the integral of the differential one", "statement": "phase_function's total cross section, without absorption, is the integral over the sphere (trapezoid rule on the angle grid) of the mean of the two polarisations divided by |k|^2; it is non-negative and linear; with absorption in a binary system it is the number average over the two species; phase function and cross section come from the same differential cross sections.", "quantifier": "every differential cross section, grid and pair of species", "why_tests_cant": "The claim ranges over a continuum of real inputs; a finite set of test points cannot settle it, least of all at the boundary values where branches switch.", "anchors": ["structcol/montecarlo.py:phase_function", "structcol/model.py:_integrate_cross_section"]}
{"id": "C90", "title": "slopes of a coarse surface follow the stated distribution", "statement": "coarse_roughness_enter with roughness r > 0 always succeeds for a film and gives every photon a facet slope strictly between 0 and 90 degrees, drawn with probability proportional to P_theta_a, which is a probability density on [0, 90) degrees with cumulative distribution 1 - exp(-tan^2/(2 r^2)) and mean squared slope 2 r^2; each photon's directions are those of its own facet; roughness 0 is a flat surface; a sphere is refused.", "quantifier": "every roughness, every number of photons, every stream of the generator", "why_tests_cant": "The claim must hold for every stream the random generator could deliver; a test sees one seed.", "anchors": ["structcol/montecarlo.py:coarse_roughness_enter", "structcol/montecarlo.py:P_theta_a"]}
{"id": "C91", "title": "the radial distribution function is empty inside contact and solves the Ornstein-Zernike relation", "statement": "radial_dist_py, at each of its grid points, is zero for r below one diameter and otherwise one plus the inverse transform of a solution of the Ornstein-Zernike equation for the Percus-Yevick direct correlation function at number density 6 phi/pi, so that one plus density times the transform is the structure factor; the equation can be solved at every wavenumber for all volume fractions but finitely many, and for all up to 0.07.", "quantifier": "every volume fraction, every interpolating spline", "why_tests_cant": "The claim ranges over a continuum of real inputs; a finite set of test points cannot settle it, least of all at the boundary values where branches switch.", "anchors": ["structcol/structure.py:radial_dist_py", "structcol/structure.py:cc"]}
{"id": "C92", "title": "the discrete spherical transforms undo each other", "statement": "On the grids radial_dist_py uses, inverse_spherical_FT(spherical_FT(f)) returns f; both transforms are linear.", "quantifier": "every grid size, spacing and array", "why_tests_cant": "The claim ranges over a continuum of real inputs; a finite set of test points cannot settle it, least of all at the boundary values where branches switch.", "anchors": ["structcol/structure.py:spherical_FT", "structcol/structure.py:inverse_spherical_FT", "structcol/structure.py:radial_dist_py"]}
{"id": "C93", "title": "the structural phase is a mean of unit phases", "statement": "Whenever field_phase_py returns, the value has modulus at most 1, is 1 at qd = 0, is conjugated when qd changes sign, and is the mean of exp(i qd r) over sampled positions taken from r_d; it raises ValueError exactly if g(r) is negative at some position.", "quantifier": "every radial distribution, every stream of the generator, every number of samples", "why_tests_cant": "The claim must hold for every stream the random generator could deliver; a test sees one seed.", "anchors": ["structcol/structure.py:field_phase_py"]}
{"id": "C94", "title": "phase_factor weights neighbours with the number density of the sample", "statement": "phase_factor integrates 4 pi r^2 rho g(r) pi J0(q r) with rho the number density (per diameter cubed) for which g was computed, 6 phi/pi.", "quantifier": "every volume fraction, wavenumber and grid", "why_tests_cant": "The claim ranges over a continuum of real inputs; a finite set of test points cannot settle it, least of all at the boundary values where branches switch.", "anchors": ["structcol/structure.py:phase_factor", "structcol/structure.py:radial_dist_py"]}
{"id": "C95", "title": "a complete film simulation delivers physical fractions", "statement": "Running initialize, sample_angles, sample_step, absorb, scatter, move and calc_refl_trans for a film one after the other never raises in the documented domain (medium not denser than the sample, draws in [0,1), with or without roughness, cover slips, goniometer); reflectance and transmittance are both NaN or non-negative with sum at most 1; without absorption, on a flat film with full-hemisphere detection, the sum is exactly 1; with absorption and no cover slips the results are never NaN.", "quantifier": "every stream of random numbers, number of events and trajectories, phase function, coefficients, indices and angles", "why_tests_cant": "The claim must hold for every stream the random generator could deliver; a test sees one seed.", "anchors": ["structcol/detector.py:calc_refl_trans", "structcol/montecarlo.py:initialize", "structcol/montecarlo.py:Trajectory", "structcol/montecarlo.py:sample_angles", "structcol/montecarlo.py:sample_step"]}
{"id": "C96", "title": "more absorption never increases reflectance or transmittance", "statement": "With the same random numbers (or the same trajectories with smaller weights) and full-hemisphere detection, a larger absorption coefficient never gives a larger reflectance or a larger transmittance of a film, and never turns a number into NaN.", "quantifier": "every film simulation, every stream of random numbers, every pair of absorption coefficients", "why_tests_cant": "The claim must hold for every stream the random generator could deliver; a test sees one seed.", "anchors": ["structcol/detector.py:calc_refl_trans", "structcol/montecarlo.py:Trajectory.absorb"]}
{"id": "C97", "title": "the result does not depend on the unit of length", "statement": "Multiplying all lengths of a film simulation (positions, thickness, z_low, spot size, and the size and distance of the goniometer detector) by c > 0 and dividing all coefficients by c reproduces exactly the same reflectance, transmittance and per-trajectory arrays, with or without a goniometer.", "quantifier": "every film simulation, with or without goniometer, every stream of random numbers, every c > 0", "why_tests_cant": "The claim must hold for every stream the random generator could deliver; a test sees one seed.", "anchors": ["structcol/detector.py:calc_refl_trans", "structcol/montecarlo.py:initialize", "structcol/montecarlo.py:sample_step", "structcol/montecarlo.py:Trajectory"]}
{"id": "C98", "title": "the order of the trajectories is irrelevant", "statement": "Relabelling the trajectories passed to calc_refl_trans relabels the per-trajectory results in the same way and leaves reflectance, transmittance, errors and NaN unchanged: for a film with or without roughness, cover slips and goniometer, and for a smooth sphere including every generation of re-started photons (whose random numbers are relabelled with them).", "quantifier": "every bundle of trajectories and every permutation", "why_tests_cant": "The claim ranges over every array size and content; tests fix a handful of shapes and seeds.", "anchors": ["structcol/detector.py:calc_refl_trans"]}
{"id": "C99", "title": "what a photon does after leaving the sample is irrelevant", "statement": "If every trajectory leaves the film, the reflectance and transmittance are fixed by positions up to, and directions and weights before, each trajectory's exit; in particular simulating more events with the same random numbers does not change the result once no photon is stuck. This holds with and without a goniometer, and also for a sphere when light sent back at its surface is not followed again.", "quantifier": "every film simulation with or without goniometer (and every sphere evaluation without re-running), every stream of random numbers, every pair of event numbers", "why_tests_cant": "The claim must hold for every stream the random generator could deliver; a test sees one seed.", "anchors": ["structcol/detector.py:calc_refl_trans", "structcol/detector.py:find_valid_exits", "structcol/detector.py:find_event_indices"]}
{"id": "C100", "title": "a complete sphere simulation delivers physical fractions", "statement": "Running initialize, sample_angles, sample_step, absorb, scatter, move and calc_refl_trans for a smooth sphere one after the other never raises in the documented domain (medium not denser than the sample, spot not larger than the sphere, draws in [0,1)), including all generations of photons that are re-started where light was sent back at the surface: reflectance and transmittance are numbers, non-negative, with sum at most 1; without absorption and with full-hemisphere detection the sum is exactly 1.", "quantifier": "every stream of random numbers in every generation, number of events and trajectories, phase function, coefficients, indices, max_call_depth, max_stuck", "why_tests_cant": "The claim must hold for every stream the random generator could deliver; a test sees one seed.", "anchors": ["structcol/detector.py:calc_refl_trans", "structcol/detector.py:run_sphere_fresnel_traj", "structcol/detector.py:get_angles", "structcol/montecarlo.py:initialize", "structcol/montecarlo.py:Trajectory", "structcol/montecarlo.py:sample_angles", "structcol/montecarlo.py:sample_step"]}
{"id": "C101", "title": "calc_refl_trans for a film computes the documented estimator", "statement": "For every bundle of trajectories in a film, reflectance, transmittance and the per-trajectory arrays are given by one formula: each photon enters with the fraction its angle of incidence lets through the front plate, leaves at the first event at which it meets a face inside the critical cone, escapes there with the fraction the plate at that face lets through, is counted if its refracted direction is within the detection angle, and light of unknown final state (sent back at a face, or trapped) is shared out in the proportions of the light of known final state; also with coarse roughness and with a goniometer.", "quantifier": "every bundle of trajectories, indices, cover slips, detection angle, thickness", "why_tests_cant": "The claim ranges over a continuum of real inputs; a finite set of test points cannot settle it, least of all at the boundary values where branches switch.", "anchors": ["structcol/detector.py:calc_refl_trans", "structcol/detector.py:fresnel_correct_enter", "structcol/detector.py:fresnel_correct_exit", "structcol/detector.py:detect_corrected_traj", "structcol/detector.py:distribute_ambig_traj_weights"]}
{"id": "C102", "title": "specular reflection is detected at its own angle", "statement": "Light reflected from the film at first incidence is counted in the reflectance exactly if its angle in the medium, the angle of incidence, is within the detection angle.", "quantifier": "every film simulation, angle of incidence, index, detection angle", "why_tests_cant": "The claim ranges over a continuum of real inputs; a finite set of test points cannot settle it, least of all at the boundary values where branches switch.", "anchors": ["structcol/detector.py:detect_corrected_traj", "structcol/detector.py:get_angles"]}
{"id": "C103", "title": "sampled steps are independent and exponentially distributed", "statement": "If the generator delivers independent uniform numbers, the steps returned by sample_step are independent over events and trajectories, each exponentially distributed with the scattering coefficient (first steps of the roughened trajectories: with the second coefficient), so that a fraction exp(-mu s) of the photons travels further than s unscattered and the mean step is 1/mu.", "quantifier": "every probability space carrying independent uniform numbers, every coefficient, roughness fraction, event and trajectory", "why_tests_cant": "a distribution over infinitely many outcomes; a test can only estimate it from a finite sample", "anchors": ["structcol/montecarlo.py:sample_step"]}
{"id": "C104", "title": "the incident beam is uniform", "statement": "If the generator delivers independent uniform numbers, initialize places the photons independently and uniformly: over the square spot for a film (with angles of incidence uniform between their limits and independent of everything else), over the disc of diameter spot_size, by area, for a sphere.", "quantifier": "every probability space carrying independent uniform numbers, every spot size, angles, number of photons", "why_tests_cant": "a distribution over infinitely many outcomes; a test can only estimate it from a finite sample", "anchors": ["structcol/montecarlo.py:initialize"]}
{"id": "C105", "title": "sampled scattering angles follow the phase function", "statement": "If the generator delivers independent uniform numbers, sample_angles returns independent angles: each theta equals the k-th grid angle with probability p_k sin(theta_k) / sum(p sin(theta)), each phi is uniform on [0, 2 pi); for a phase function of both angles the pair has the product of the marginal of phi and the conditional of theta, independently over events and trajectories.", "quantifier": "every probability space carrying independent uniform numbers, every phase function, grid size, event and trajectory", "why_tests_cant": "a distribution over infinitely many outcomes; a test can only estimate it from a finite sample", "anchors": ["structcol/montecarlo.py:sample_angles"]}
{"id": "C106", "title": "scattering that does not depend on azimuth is sampled without azimuthal bias", "statement": "For a phase function that does not depend on phi, the mean of cos(phi) and of sin(phi) over the sampled azimuths is zero, whether the phase function is given on a grid of theta or on a grid of theta and phi.", "quantifier": "every phase function of theta, every grid size", "why_tests_cant": "an expectation over infinitely many outcomes", "anchors": ["structcol/montecarlo.py:sample_angles"]}
{"id": "C107", "title": "light loses its direction at the rate the phase function says", "statement": "On average over the random numbers, light entering along z has the direction (0, 0, g^n) after n scattering events, where g is the mean cosine of the phase function, and the mean cosine of the angle between the directions before and after any single event is g.", "quantifier": "every non-negative phase function of theta, every number of events, every stream of independent uniform numbers", "why_tests_cant": "an expectation over a random walk of any length", "anchors": ["structcol/montecarlo.py:Trajectory.scatter", "structcol/montecarlo.py:sample_angles"]}
{"id": "C108", "title": "the mean path of light through the sample", "statement": "On average over the random numbers, light entering along z has moved by (1 + g + ... + g^(n-1))/mu_scat in depth after n steps, and not at all sideways; as n grows this tends to one transport length, 1/(mu_scat (1-g)).", "quantifier": "every non-negative phase function of theta, every scattering coefficient, every number of steps, every stream of independent uniform numbers", "why_tests_cant": "an expectation over a random walk of any length", "anchors": ["structcol/montecarlo.py:Trajectory.move", "structcol/montecarlo.py:Trajectory.scatter", "structcol/montecarlo.py:sample_angles", "structcol/montecarlo.py:sample_step"]}
{"id": "C109", "title": "calc_refl_trans for a sphere computes the documented estimator", "statement": "For every bundle of trajectories in a sphere, without re-running the light sent back at the surface, reflectance, transmittance and the per-trajectory arrays are given by one formula: each photon enters with the fraction the front interface passes, leaves at the first event that ends outside the sphere, is reflected or transmitted by the sign of the z component that exit_kz reports there (neither if it does not get out), escapes with the fraction passed at the angle at which its step crosses the surface, is counted if it leaves within the detection angle, and light sent back or trapped is shared equally between reflectance and transmittance.", "quantifier": "every bundle of trajectories, indices, cover slips, detection angle, radius", "why_tests_cant": "The claim ranges over a continuum of real inputs; a finite set of test points cannot settle it, least of all at the boundary values where branches switch.", "anchors": ["structcol/detector.py:calc_refl_trans", "structcol/detector.py:find_valid_exits", "structcol/detector.py:get_angles", "structcol/detector.py:distribute_ambig_traj_weights"]}
{"id": "C110", "title": "Absorption acts along the path inside the sample", "statement": "Light that leaves the sample at a point of its path carries the weight it started with times exp(-mu_abs * length of its path inside the sample, up to that point).", "quantifier": "every path, step lengths, absorption coefficient, exit event and exit point", "why_tests_cant": "The claim ranges over a continuum of real inputs; a finite set of test points cannot settle it, least of all at the boundary values where branches switch.", "anchors": ["structcol/montecarlo.py:Trajectory.absorb", "structcol/montecarlo.py:Trajectory.move", "structcol/detector.py:calc_outcome_weights"]}
{"id": "C111", "title": "Unscattered light obeys Beer's law", "statement": "In a smooth film of thickness L lit at one angle of incidence, the probability that a photon crosses the film in its first event is exp(-mu_scat L / c), where c is the cosine of the angle of refraction; the mean weight with which this light arrives is exp(-(mu_scat + mu_abs) L / c).", "quantifier": "every film, angle of incidence, coefficients, phase function, number of events and trajectories; over the distribution of the draws", "why_tests_cant": "The claim must hold for every stream the random generator could deliver; a test sees one seed.", "anchors": ["structcol/montecarlo.py:sample_step", "structcol/montecarlo.py:initialize", "structcol/montecarlo.py:Trajectory.absorb", "structcol/detector.py:find_valid_exits", "structcol/detector.py:find_event_indices"]}
{"id": "C112", "title": "More trajectories give the right answer", "statement": "For a smooth film lit at one angle of incidence, the fraction of trajectories found transmitted without scattering converges with probability one to exp(-mu_scat L / c) as the number of trajectories grows; for every number of trajectories it has that mean and the variance p(1-p)/ntraj.", "quantifier": "every film and angle of incidence; every number of trajectories, and the limit; over the distribution of the draws", "why_tests_cant": "The claim must hold for every stream the random generator could deliver; a test sees one seed.", "anchors": ["structcol/montecarlo.py:sample_step", "structcol/montecarlo.py:initialize", "structcol/detector.py:find_valid_exits", "structcol/detector.py:find_event_indices"]}
{"id": "C113", "title": "calc_scat_bulk can be called twice", "statement": "Calling calc_scat_bulk a second time with the same arrays returns the same phase function and coefficients.", "quantifier": "every batch of exits, with exit positions or directions, every density estimate", "why_tests_cant": "The claim is about every history of scattering events and every batch of trajectories, of any length; a seeded simulation explores a vanishing fraction of them.", "anchors": ["structcol/phase_func_sphere.py:calc_scat_bulk", "structcol/phase_func_sphere.py:calc_pdf"]}
{"id": "C114", "title": "A complete multiscale simulation delivers physical fractions", "statement": "For every simulation of a structured sphere followed by calc_scat_bulk and a simulation of a film with the phase function and coefficients it returns, the phase function is made of positive numbers adding up to 1, the coefficients are physical, and the film simulation runs without error and gives reflectance and transmittance that are non-negative with sum at most 1 (or both NaN).", "quantifier": "all random numbers on both scales, all numbers of photons and events, all re-runs, all volume fractions, every positive density estimate", "why_tests_cant": "The claim must hold for every stream the random generator could deliver; a test sees one seed.", "anchors": ["structcol/phase_func_sphere.py:calc_scat_bulk", "structcol/phase_func_sphere.py:calc_mu_scat_abs", "structcol/phase_func_sphere.py:calc_pdf", "structcol/detector.py:calc_refl_trans", "structcol/detector.py:run_sphere_fresnel_traj", "structcol/montecarlo.py:initialize"]}
{"id": "C115", "title": "A phi-dependent phase function can be requested", "statement": "calc_pdf and calc_scat_bulk with phi_dependent=True return a phase function of nu and phi.", "quantifier": "every batch of exits", "why_tests_cant": "The claim ranges over a continuum of real inputs; a finite set of test points cannot settle it, least of all at the boundary values where branches switch.", "anchors": ["structcol/phase_func_sphere.py:calc_pdf", "structcol/phase_func_sphere.py:calc_scat_bulk"]}
{"id": "C116", "title": "conv_circ is the circular convolution", "statement": "For two real arrays of equal length n > 0, conv_circ returns n real numbers, the j-th being the sum of signal[i] * ker[(j-i) mod n]; nothing is discarded by taking the real part, the arguments may be exchanged, the results add up to the product of the two totals, and non-negative arrays give non-negative results. Empty arrays and different lengths (unless one is 1) are ValueErrors.", "quantifier": "all real arrays of all lengths", "why_tests_cant": "The claim ranges over a continuum of real inputs; a finite set of test points cannot settle it, least of all at the boundary values where branches switch.", "anchors": ["structcol/phase_func_sphere.py:conv_circ"]}
{"id": "C117", "title": "absorption_cross_section is an average of Mie absorption cross sections", "statement": "absorption_cross_section returns 0 without a particle geometry, the Mie cross section (never negative for multilayer particles) for one sphere, and for a polydisperse system the average over the size distribution and the species of the cross sections of the spheres; unknown geometries and incomplete arguments are refused with ValueError.", "quantifier": "every geometry, size distribution, concentration, matrix index, Mie cross section", "why_tests_cant": "The claim ranges over a continuum of real inputs; a finite set of test points cannot settle it, least of all at the boundary values where branches switch.", "anchors": ["structcol/model.py:absorption_cross_section", "structcol/model.py:size_distribution"]}
{"id": "C118", "title": "each direction has the distribution of scattering in the photon's own frame", "statement": "If the generator delivers independent uniform numbers and the light enters along z, then at every event the directions of all trajectories together have the distribution they would have if every scattering event turned the photon by the sampled angles relative to its current direction.", "quantifier": "every phase function (of theta, or of theta and phi), number of events and trajectories, every stream of independent uniform numbers", "why_tests_cant": "an equality of distributions over a random walk of any length", "anchors": ["structcol/montecarlo.py:Trajectory.scatter", "structcol/montecarlo.py:sample_angles"]}
{"id": "C119", "title": "totally internally reflected light can be tallied coherently", "statement": "calc_tir with phase=True returns the intensity of the summed fields of the totally internally reflected trajectories at each event, and calc_tir_phase_event_input returns their weights and event numbers.", "quantifier": "every bundle of trajectories", "why_tests_cant": "The claim ranges over every array size and content; tests fix a handful of shapes and seeds.", "anchors": ["structcol/event_distribution.py:calc_tir", "structcol/event_distribution.py:calc_tir_phase_event_input"]}
{"id": "C120", "title": "Fresnel coefficients of absorbing samples", "statement": "fresnel_reflection accepts complex refractive indices: at normal incidence, where the polarisations are indistinguishable, both coefficients are |(n1-n2)/(n1+n2)|^2; the coefficients are fractions at every angle from 0 to 90 degrees; with real indices they are the ordinary ones.", "quantifier": "every pair of indices with positive real part, every angle of incidence", "why_tests_cant": "The claim ranges over a continuum of real inputs; a finite set of test points cannot settle it, least of all at the boundary values where branches switch.", "anchors": ["structcol/model.py:fresnel_reflection", "structcol/model.py:fresnel_transmission", "structcol/model.py:reflection"]}
{"id": "C121", "title": "the two models scatter alike", "statement": "For one sample, described to model.reflection and to montecarlo.calc_scat with the same grid of angles and the effective index that reflection computes, the scattering coefficient of calc_scat is the inverse of transport_length*(1-asymmetry_parameter) as returned by reflection.", "quantifier": "every sample: any layers, absorbing or not, monodisperse, binary or polydisperse, any form and structure factor, any effective-medium flags under which both succeed", "why_tests_cant": "The claim ranges over a continuum of real inputs; a finite set of test points cannot settle it, least of all at the boundary values where branches switch.", "anchors": ["structcol/model.py:reflection", "structcol/montecarlo.py:calc_scat", "structcol/montecarlo.py:phase_function", "structcol/model.py:differential_cross_section"]}
{"id": "C122", "title": "single-scattering reflectance of an absorbing film", "statement": "For an absorbing sample, reflection returns finite values; a film of thickness L reflects, in each polarisation, its Fresnel reflection plus the share (1-exp(-(mu_s+mu_a)L)) mu_s/(mu_s+mu_a) of what the semi-infinite sample adds to it, mu_s and mu_a being the coefficients calc_scat returns for the sample; the asymmetry parameter lies in [-1,1], the transport length is at least half the scattering length, neither depends on the thickness, and the unpolarised reflectance is the mean of the polarised ones.", "quantifier": "every absorbing sample with Im n <= Re n, every thickness, angle of incidence, backward detector range and non-negative differential cross section", "why_tests_cant": "The claim ranges over a continuum of real inputs; a finite set of test points cannot settle it, least of all at the boundary values where branches switch.", "anchors": ["structcol/model.py:reflection", "structcol/montecarlo.py:calc_scat"]}
{"id": "C123", "title": "event plots", "statement": "plot_refl_event_norm draws, for every requested event, the fraction of the light still in the sample that this event sends out: a value in [0,1] (a gap when no light is left), and the complements of these fractions multiply up to the light remaining after any number of events. plot_refl_event_sum over all events draws the total reflectance. plot_refl_dist draws a probability distribution over events at a listed wavelength and raises IndexError otherwise. plot_refl_event_sum_norm draws a reflectance between 0 and 1. A plot is made exactly if every event is an index of the event axis and the table has one row per wavelength.", "quantifier": "all event tables with non-negative entries and row sums at most 1, all numbers of wavelengths and events, all lists of requested events", "why_tests_cant": "The claim ranges over a continuum of real inputs; a finite set of test points cannot settle it, least of all at the boundary values where branches switch.", "anchors": ["structcol/event_distribution.py:plot_refl_event", "structcol/event_distribution.py:plot_refl_event_norm", "structcol/event_distribution.py:plot_refl_event_sum", "structcol/event_distribution.py:plot_refl_event_sum_norm", "structcol/event_distribution.py:plot_refl_dist"]}
{"id": "C124", "title": "saved data are not overwritten by another sample", "statement": "In a session of save_data calls, the data of a call can still be read from its file at the end unless a later call saved the same sample: different samples, wavelengths or simulation sizes go to different files, and parameters may be given in any form the rest of the package accepts.", "quantifier": "all sessions (sequences of calls) of any length, all starting contents of the directory, all parameter values", "why_tests_cant": "The claim is about every history of scattering events and every batch of trajectories, of any length; a seeded simulation explores a vanishing fraction of them.", "anchors": ["structcol/event_distribution.py:save_data"]}
{"id": "C125", "title": "light spreads at the rate diffusion theory gives", "statement": "On average over the random numbers, the squared distance of light from its point of entry after n events is (2/mu_scat^2) times the sum over l < n of 1 + g + ... + g^l, so that after many events it grows per event by twice the scattering length 1/mu_scat times the transport length 1/(mu_scat (1-g)).", "quantifier": "every non-negative phase function of theta, every scattering coefficient, every number of events and their limit, every stream of independent uniform numbers", "why_tests_cant": "a second moment of a random walk of any length, and its limit", "anchors": ["structcol/montecarlo.py:Trajectory.scatter", "structcol/montecarlo.py:Trajectory.move", "structcol/montecarlo.py:sample_angles", "structcol/montecarlo.py:sample_step"]}
{"id": "C126", "title": "what happens to light at oblique incidence does not depend on the azimuth it comes from", "statement": "For light that enters at any polar angle, the probability of every statement about its inclinations to the film (heading back or on, within or outside the critical angle) after any number of scattering events is that of scattering by the sampled angles in the light's own frame; in particular it does not depend on the azimuth of incidence.", "quantifier": "every polar angle and azimuth of incidence, every phase function of theta, every number of events, every stream of independent uniform numbers", "why_tests_cant": "The claim must hold for every stream the random generator could deliver; a test sees one seed.", "anchors": ["structcol/montecarlo.py:Trajectory.scatter", "structcol/montecarlo.py:initialize", "structcol/montecarlo.py:sample_angles"]}
{"id": "C127", "title": "every photon leaves the film sooner or later", "statement": "However thick the film, however strong the scattering and whatever the phase function, the probability that a photon is still in the film after n events falls at least exponentially with n, at a rate that does not depend on the illumination, the absorption or the roughness; so with enough events the warning about stuck light disappears.", "quantifier": "every film, medium not denser than the sample, every scattering coefficient and non-negative phase function, every illumination, every number of events and the limit, every stream of independent uniform numbers", "why_tests_cant": "the probability of an event of a random walk of unbounded length", "anchors": ["structcol/montecarlo.py:Trajectory.scatter", "structcol/montecarlo.py:Trajectory.move", "structcol/montecarlo.py:sample_angles", "structcol/montecarlo.py:sample_step", "structcol/detector.py:find_valid_exits", "structcol/detector.py:find_event_indices", "structcol/detector.py:calc_outcome_weights"]}
{"id": "C128", "title": "events after the last photon has left do not change the result, and the result settles", "statement": "Once no photon is stuck, simulating more events with the same random numbers gives exactly the same reflectance, transmittance and per-photon shares; a photon that is not stuck after n events is not stuck after more. With probability one the reported result settles: from some number of events on it does not change any more.", "quantifier": "every film run, with or without goniometer, that does not fail, every two numbers of events, every stream of random numbers (first part); medium not denser than the sample and independent uniform numbers (second part)", "why_tests_cant": "compares runs of every length, and a limit over unbounded runs", "anchors": ["structcol/montecarlo.py:Trajectory.scatter", "structcol/montecarlo.py:Trajectory.move", "structcol/detector.py:find_valid_exits", "structcol/detector.py:find_event_indices", "structcol/detector.py:calc_refl_trans"]}
{"id": "C129", "title": "with a fine grid of angles the single-scattering model evaluates its integrals", "statement": "As num_angles grows, the single-scattering reflectance of a transparent sample converges, in each polarisation, to the textbook Fresnel reflectance of the surface plus the light that enters, is scattered into the detector's range of angles (as refracted by Snell's law) and transmitted on its way out by the textbook Fresnel coefficient, relative to everything scattered and absorbed; the asymmetry parameter converges to the mean cosine of the scattering angle and the transport length to 1/(rho sigma (1-g)).", "quantifier": "every pair of real indices, every angle of incidence up to 90 degrees, every detector in the backward half space, every pair of continuous non-negative differential cross sections that scatter, every thickness", "why_tests_cant": "a limit of sums with a discontinuous integrand (critical angle)", "anchors": ["structcol/model.py:reflection"]}
{"id": "C130", "title": "with a fine grid of angles the Monte Carlo model samples the continuous phase function", "statement": "As the grid of angles is refined, sampling succeeds and the probability that a sampled scattering angle is at most t converges to the share of light that the continuous phase function scatters into angles up to t, weighted by solid angle; the mean direction cosine of light after e scattering events converges to g^e with g the mean cosine of the continuous phase function.", "quantifier": "every continuous non-negative phase function that scatters, of any normalisation, every smallest angle, every photon and every event", "why_tests_cant": "The claim must hold for every stream the random generator could deliver; a test sees one seed.", "anchors": ["structcol/montecarlo.py:sample_angles", "structcol/montecarlo.py:Trajectory.scatter"]}
{"id": "C131", "title": "Monte Carlo photons penetrate on average to the transport length of the single-scattering model", "statement": "For one transparent sample described to both models, refining the grid of angles makes the transport length reported by the single-scattering model converge to a length, and the mean depth after e steps of photons simulated with the phase function and scattering coefficient of the Monte Carlo model converge to a depth that tends to that same length as the number of steps grows.", "quantifier": "every transparent sample with continuous differential cross sections that scatters, every smallest angle below pi, every photon", "why_tests_cant": "The claim must hold for every stream the random generator could deliver; a test sees one seed.", "anchors": ["structcol/model.py:reflection", "structcol/montecarlo.py:calc_scat", "structcol/montecarlo.py:sample_angles", "structcol/montecarlo.py:sample_step", "structcol/montecarlo.py:Trajectory"]}
{"id": "C132", "title": "The sizes of a polydisperse powder do not depend on the unit of length", "statement": "Giving the mean diameter of a polydisperse powder in another unit of length changes neither the list of diameters considered nor the diameters sampled, whichever units the mean and the list are in.", "quantifier": "every mean diameter, polydispersity index, number of diameters, pair of units and random draws", "why_tests_cant": "The claim ranges over a continuum of real inputs; a finite set of test points cannot settle it, least of all at the boundary values where branches switch.", "anchors": ["structcol/phase_func_sphere.py:calc_diam_list", "structcol/phase_func_sphere.py:sample_diams", "structcol/phase_func_sphere.py:size_distribution"]}
{"id": "C133", "title": "The results of both models of a sample do not depend on the unit of length", "statement": "Expressing the wavelength, radii and thickness of one sample in another unit of length leaves the reflectances, the asymmetry parameter and the phase function unchanged, converts the transport length and the scattering and absorption coefficients to the new unit, and gives the same error if there is one; the form factor of polydisperse particles does not change either.", "quantifier": "every sample description with or without core-shell particles, a second species, absorption, a thickness, effective media and fine roughness, and every positive ratio of units", "why_tests_cant": "The claim ranges over a continuum of real inputs; a finite set of test points cannot settle it, least of all at the boundary values where branches switch.", "anchors": ["structcol/model.py:reflection", "structcol/model.py:polydisperse_form_factor", "structcol/montecarlo.py:calc_scat", "structcol/montecarlo.py:phase_function"]}
{"id": "C134", "title": "Monte Carlo results for a sphere do not depend on the unit of length", "statement": "Giving the positions of all trajectories and the diameter of a sphere in another unit of length changes neither the reflectance and transmittance nor the contribution of any trajectory, and does not change through which side a photon is counted as leaving.", "quantifier": "every bundle of trajectories in a sphere, every index contrast, every ratio of units", "why_tests_cant": "The claim ranges over a continuum of real inputs; a finite set of test points cannot settle it, least of all at the boundary values where branches switch.", "anchors": ["structcol/detector.py:exit_kz", "structcol/detector.py:rotate_refract", "structcol/detector.py:calc_refl_trans"]}
{"id": "C135", "title": "Electric fields and coherent reflectance do not depend on the unit of length", "statement": "Giving wavelength, radius and steps in another unit of length changes neither the reflectance with interference nor the one without, nor the moduli of the field components of any trajectory at any event.", "quantifier": "every bundle of trajectories, amplitude scattering matrices, wavelength, steps and ratio of units", "why_tests_cant": "The claim ranges over a continuum of real inputs; a finite set of test points cannot settle it, least of all at the boundary values where branches switch.", "anchors": ["structcol/montecarlo.py:Trajectory.calc_fields", "structcol/detector_polarization_phase.py:calc_refl_phase_fields"]}
{"id": "C136", "title": "a Cargille liquid has the index it is sold for", "statement": "n_cargille(i, series, 589.3 nm) is the nominal index of the i-th liquid of the series (AAA 1.300+0.005i, AA 1.400+0.002i, A 1.460+0.002i, B 1.642+0.002i, E 1.500+0.005i) to within rounding of the tables.", "quantifier": "every graded series and every cardinal number in it", "why_tests_cant": "a test would compare single liquids; the claim is about all 200 tabulated liquids and fails for whole series", "anchors": ["structcol/refractive_index.py:n_cargille"]}
{"id": "C137", "title": "with more trajectories, reflectance and transmittance converge", "statement": "Simulate a smooth film with more and more trajectories fed from one stream of independent uniform numbers. With probability one the reflectance and transmittance returned by calc_refl_trans converge, and the limits are the estimator's formula with expectations over a single photon in place of averages over the bundle (or they are NaN for every number of trajectories, with probability one, if the expected light of known final state is zero).", "quantifier": "all films without roughness, ranges of angles of incidence, phase functions, scattering and absorption coefficients, cover plates, detection angles, numbers of events; almost every stream of random numbers", "why_tests_cant": "The claim must hold for every stream the random generator could deliver; a test sees one seed.", "anchors": ["structcol/montecarlo.py:initialize", "structcol/montecarlo.py:sample_angles", "structcol/montecarlo.py:sample_step", "structcol/montecarlo.py:Trajectory.scatter", "structcol/montecarlo.py:Trajectory.move", "structcol/montecarlo.py:Trajectory.absorb", "structcol/detector.py:calc_refl_trans"]}
{"id": "C138", "title": "a goniometer reads no more than all the light, and less when it counts less", "statement": "For one simulation of a film, the reflectance calc_refl_trans returns with detector=True is at most the one without, and a detector that counts a subset of the photons another one counts reads at most as much, in total and photon by photon; a detector that counts no photon (for instance one of size zero) reads 0. The transmittance does not depend on the detector, which is on the other side of the film.", "quantifier": "every film run that does not fail, every pair of detectors, every stream of random numbers", "why_tests_cant": "The claim ranges over a continuum of real inputs; a finite set of test points cannot settle it, least of all at the boundary values where branches switch.", "anchors": ["structcol/detector.py:calc_refl_trans", "structcol/detector.py:calc_indices_detected", "structcol/detector.py:distribute_ambig_traj_weights"]}
{"id": "C139", "title": "the goniometer's detector is a square", "statement": "A photon that leaves the sample at the origin is counted by the goniometer exactly if the ray along which it leaves meets the square of side det_len whose centre is at distance det_dist in the direction det_theta from the normal and which faces the sample.", "quantifier": "every exit direction, detector angle, side and distance, every pair of indices", "why_tests_cant": "The claim ranges over a continuum of real inputs; a finite set of test points cannot settle it, least of all at the boundary values where branches switch.", "anchors": ["structcol/detector.py:calc_indices_detected"]}
{"id": "C140", "title": "plots of phase functions and exit points show densities and exits", "statement": "plot_phase_func draws (and saves) a probability density: non-negative, in proportion to the given density, and normalised over its grid, as a curve over theta or as a map over theta and phi; plot_dist_1d likewise; calc_pdf(plot=True) returns whenever calc_pdf does; plot_exit_points draws an exit at its own polar angle and azimuth, so that calc_directions for these angles returns the direction of that exit.", "quantifier": "every density, every grid of nu in [0,1] and phi, every exit on the sphere", "why_tests_cant": "The claim ranges over a continuum of real inputs; a finite set of test points cannot settle it, least of all at the boundary values where branches switch.", "anchors": ["structcol/phase_func_sphere.py:plot_phase_func", "structcol/phase_func_sphere.py:plot_dist_1d", "structcol/phase_func_sphere.py:plot_exit_points", "structcol/phase_func_sphere.py:calc_pdf", "structcol/phase_func_sphere.py:calc_directions"]}
{"id": "C141", "title": "limits in the number of events and of trajectories agree", "statement": "Running a smooth film with more and more events, every trajectory stops changing with probability one, the expected light still in the film falls geometrically, and the mean number of events before a photon leaves is finite. Reflectance and transmittance converge to the same numbers whether first the number of trajectories and then that of events grows or the other way round; the limits are fractions with sum at most 1, and exactly 1 without absorption when all angles are detected. The light of known final state only grows with the number of events.", "quantifier": "every smooth film (indices, plates, thickness, beam, phase function, coefficients, detection angle), almost every stream of random numbers, all numbers of events and trajectories", "why_tests_cant": "The claim must hold for every stream the random generator could deliver; a test sees one seed.", "anchors": ["structcol/montecarlo.py:initialize", "structcol/montecarlo.py:Trajectory", "structcol/detector.py:calc_refl_trans", "structcol/detector.py:find_event_indices", "structcol/detector.py:calc_outcome_weights"]}
{"id": "C142", "title": "goniometer with a sphere", "statement": "For a spherical sample, `calc_refl_trans(..., detector=True)` should count exactly the photons whose ray, refracted at the surface of the sphere, hits the detector; leave the transmittance unchanged; return whenever the same call without detector returns; and read zero when no photon hits.", "quantifier": "all bundles of trajectories, diameters, indices, detector angles, sizes and distances, with and without re-running the light sent back", "why_tests_cant": "The claim ranges over a continuum of real inputs; a finite set of test points cannot settle it, least of all at the boundary values where branches switch.", "anchors": ["structcol/detector.py:calc_refl_trans", "structcol/detector.py:calc_indices_detected", "structcol/detector.py:shift_traj_tir", "structcol/detector.py:get_angles", "structcol/detector.py:run_sphere_fresnel_traj"]}
{"id": "C143", "title": "statistical error of a film run", "statement": "For a smooth film simulated with N trajectories fed with independent uniform numbers, reflectance and transmittance differ from the values they converge to by at most (5/2 + 2/known)·eps (plus a term for a detector that misses part of the escaping light), except with probability at most 18·exp(−2·N·eps²); so a prescribed accuracy and confidence is reached from an explicit number of trajectories on.", "quantifier": "all numbers of trajectories and events, phase functions, ranges of angles of incidence, absorption, plates, indices, thicknesses, detection angles, and all eps below the expected light of known final state", "why_tests_cant": "The claim must hold for every stream the random generator could deliver; a test sees one seed.", "anchors": ["structcol/detector.py:calc_refl_trans", "structcol/detector.py:distribute_trajs", "structcol/detector.py:fresnel_correct_enter", "structcol/montecarlo.py:Trajectory", "structcol/montecarlo.py:initialize"]}
{"id": "C144", "title": "a simulation may be split into batches", "statement": "Reflectance and transmittance of a run are the averages of those of the batches of trajectories it is split into, weighted with the numbers of trajectories; each trajectory contributes the same whatever other trajectories are simulated with it.", "quantifier": "all numbers of trajectories and events, splittings, choices and orders of trajectories, random numbers, phase functions, coefficients, indices, plates, sizes", "why_tests_cant": "The claim ranges over every array size and content; tests fix a handful of shapes and seeds.", "anchors": ["structcol/detector.py:calc_refl_trans", "structcol/detector.py:distribute_ambig_traj_weights", "structcol/detector.py:run_sphere_fresnel_traj", "structcol/montecarlo.py:initialize", "structcol/montecarlo.py:Trajectory"]}
{"id": "C145", "title": "sphere simulations are unbiased, with a known error, and converge", "statement": "For a sphere whose light is counted over the full hemispheres, the simulated reflectance and transmittance have the same expectation whatever the number of photons, are off by eps or more with probability at most 2 exp(-2 N eps^2), and converge with probability one as photons are added; every run succeeds with probability one.", "quantifier": "all spheres, phase functions, coefficients, indices, numbers of photons and events, generations of re-runs, tolerances eps, and all sources of independent uniform numbers", "why_tests_cant": "The claim must hold for every stream the random generator could deliver; a test sees one seed.", "anchors": ["structcol/detector.py:calc_refl_trans", "structcol/detector.py:run_sphere_fresnel_traj", "structcol/montecarlo.py:initialize", "structcol/montecarlo.py:sample_angles", "structcol/montecarlo.py:sample_step"]}
{"id": "C146", "title": "how many events a sphere needs", "statement": "For a sphere, simulating more events than it takes the photons to leave does not change the result, and every photon leaves: the probability that it has not left a sphere of diameter D after n events is at most (1 - exp(-mu D))^n.", "quantifier": "all spheres, phase functions, coefficients, indices, plates, numbers of photons, detection angles, treatments of the light sent back (shared out or re-run with any limits), numbers of events and random numbers", "why_tests_cant": "The claim must hold for every stream the random generator could deliver; a test sees one seed.", "anchors": ["structcol/detector.py:find_event_indices", "structcol/detector.py:calc_outcome_weights", "structcol/detector.py:calc_refl_trans", "structcol/detector.py:run_sphere_fresnel_traj", "structcol/montecarlo.py:sample_step"]}
{"id": "C147", "title": "more absorption never brightens a sphere", "statement": "For a sphere and a given sequence of random numbers, increasing the absorption coefficient increases neither the reflectance nor the transmittance, nor the contribution of any photon.", "quantifier": "all spheres, phase functions, coefficients, indices, plates, numbers of photons and events, generations of re-runs, pairs of absorption coefficients, and random numbers", "why_tests_cant": "The claim ranges over a continuum of real inputs; a finite set of test points cannot settle it, least of all at the boundary values where branches switch.", "anchors": ["structcol/montecarlo.py:absorb", "structcol/detector.py:calc_refl_trans", "structcol/detector.py:run_sphere_fresnel_traj", "structcol/detector.py:calc_outcome_weights"]}
{"id": "C148", "title": "a thicker or denser film reflects more and transmits less", "statement": "For a film of the refractive index of its surroundings and a given sequence of random numbers, making the film thicker, or putting k >= 1 times as many scatterers and absorbers into the same thickness, does not lower its reflectance and does not raise its transmittance (up to the 1e-9 that the code adds to its denominators), and where the thicker film gives a number instead of nan, so does the thinner one.", "quantifier": "all smooth index-matched films without cover slips, phase functions, coefficients, angles of incidence, numbers of photons and events, pairs of thicknesses, factors k >= 1, and random numbers", "why_tests_cant": "The claim ranges over a continuum of real inputs; a finite set of test points cannot settle it, least of all at the boundary values where branches switch.", "anchors": ["structcol/detector.py:calc_refl_trans", "structcol/detector.py:find_valid_exits", "structcol/detector.py:set_up_values", "structcol/montecarlo.py:Trajectory.move", "structcol/montecarlo.py:Trajectory.absorb"]}
{"id": "C149", "title": "a film that hardly scatters is a clear plate", "statement": "As the scattering coefficient of a smooth film goes to zero, its reflectance and transmittance become those of a clear plane-parallel plate of the same index, thickness and absorption.", "quantifier": "all smooth films without cover slips, all indices not below that of the medium, thicknesses, phase functions, angles of incidence below 90 degrees, absorption coefficients, numbers of photons and events, and random numbers", "why_tests_cant": "The claim ranges over a continuum of real inputs; a finite set of test points cannot settle it, least of all at the boundary values where branches switch.", "anchors": ["structcol/detector.py:calc_refl_trans", "structcol/detector.py:fresnel_correct_exit", "structcol/montecarlo.py:Trajectory.absorb"]}
{"id": "C150", "title": "a film has no preferred place and no handedness", "statement": "Without a goniometer, the reflectance and transmittance of a film do not depend on where its surface is illuminated or on the size of the spot, and a run on a smooth film gives the same result as its mirror image (all azimuths reversed), including any exception.", "quantifier": "all arguments of film runs without goniometer (the mirror image: without coarse roughness), all random numbers, entrance points and spot sizes", "why_tests_cant": "The claim ranges over a continuum of real inputs; a finite set of test points cannot settle it, least of all at the boundary values where branches switch.", "anchors": ["structcol/montecarlo.py:initialize", "structcol/montecarlo.py:Trajectory.scatter", "structcol/montecarlo.py:Trajectory.move", "structcol/detector.py:calc_refl_trans"]}
{"id": "C151", "title": "haze is the light that leaves away from the forward direction", "statement": "The haze of a film is the part of the transmitted light that travels, behind the film, at more than the cutoff angle (4.5 degrees) to the forward direction.", "quantifier": "all complete film runs with a positive transmittance, all cutoff angles up to 90 degrees, indices not below that of the medium, roughnesses, cover slips, detectors, numbers of photons and events, and random numbers", "why_tests_cant": "The claim ranges over a continuum of real inputs; a finite set of test points cannot settle it, least of all at the boundary values where branches switch.", "anchors": ["structcol/detector.py:calc_haze", "structcol/detector.py:calc_refl_trans", "structcol/detector.py:select_events"]}
{"id": "C152", "title": "the reflectance of the single-scattering model is a fraction", "statement": "The reflectance returned by the single-scattering model is between 0 and 1, as an average over polarisations and for each polarisation.", "quantifier": "all samples (indices, angle of incidence up to 90 degrees, continuous non-negative differential cross sections, absorption), all detectors in the backward half space, all thicknesses, as the grid of angles is refined", "why_tests_cant": "The claim ranges over a continuum of real inputs; a finite set of test points cannot settle it, least of all at the boundary values where branches switch.", "anchors": ["structcol/model.py:reflection", "structcol/detector.py:fresnel_reflection"]}
{"id": "C153", "title": "a sphere that hardly scatters and has the index of its surroundings is invisible", "statement": "As the scattering coefficient of a smooth sphere without cover slips and of the index of its surroundings goes to zero, everything it does not absorb along at most a diameter is transmitted and nothing is reflected.", "quantifier": "all spheres, indices (equal inside and outside), spot sizes up to the diameter, phase functions, detection angles, absorption coefficients, numbers of photons and events, re-run settings and random numbers", "why_tests_cant": "The claim ranges over a continuum of real inputs; a finite set of test points cannot settle it, least of all at the boundary values where branches switch.", "anchors": ["structcol/detector.py:calc_refl_trans", "structcol/montecarlo.py:Trajectory.absorb", "structcol/montecarlo.py:initialize"]}
{"id": "C154", "title": "the complete single-scattering model of a transparent film", "statement": "For a film of particles that does not absorb in its effective medium, reflection() returns, on a fine grid of angles, the integrals of single-scattering theory for the sample and the detector it was given: the index the caller chose with the two effective-medium flags, the number of particles that fills the volume fraction, the absorption cross section of those particles in that index, and the detector's own range of angles. At normal incidence the reflectance is a fraction.", "quantifier": "all samples (particles with any number of layers, one or two species, any volume fraction, indices, wavelength, thickness), all angles of incidence up to 90 degrees, all detectors in the backward half space, all continuous non-negative differential cross sections, as the grid of angles is refined", "why_tests_cant": "The claim ranges over a continuum of real inputs; a finite set of test points cannot settle it, least of all at the boundary values where branches switch.", "anchors": ["structcol/model.py:reflection", "structcol/detector.py:fresnel_reflection"]}
{"id": "C155", "title": "a plot of trajectories shows where the photons are", "statement": "Trajectory.plot_coord(ntraj) draws, for the number of trajectories asked for, the coordinates of each photon at its start and after every event; in three dimensions each trajectory has a colour of its own.", "quantifier": "all trajectories (any number, any number of events, start points, directions and steps), all numbers asked for", "why_tests_cant": "The claim is about every history of scattering events and every batch of trajectories, of any length; a seeded simulation explores a vanishing fraction of them.", "anchors": ["structcol/montecarlo.py:Trajectory.plot_coord", "structcol/montecarlo.py:Trajectory.move"]}
{"id": "C156", "title": "a simulation with a generator of one's own is reproducible, and its statistical error is the one of independent streams", "statement": "If initialize, sample_angles and sample_step are given the same rng, the result of the run depends only on the state of that generator: it is the same as that of any other run with a generator in the same state, and the same as with the module's generator in that state. The module's generator is left alone and the own one advances by a number of numbers known beforehand, so runs with different generators can be done in any order. No number is used twice; so if the generator's numbers are independent and uniform on [0, 1), reflectance and transmittance of a smooth film have the statistical error of C143.", "quantifier": "all arguments of initialize (film or sphere, smooth or rough, data given or not), all phase functions and coefficients, all numbers of trajectories and events, all states of both generators; the error: all smooth films, all probability spaces, all starting positions in the stream", "why_tests_cant": "The claim must hold for every stream the random generator could deliver; a test sees one seed.", "anchors": ["structcol/montecarlo.py:initialize", "structcol/montecarlo.py:sample_angles", "structcol/montecarlo.py:sample_step", "structcol/__init__.py:rng", "structcol/detector.py:calc_refl_trans"]}
{"id": "C157", "title": "runs one after the other with the same generator are independent, and the standard error of their mean is right", "statement": "If runs of smooth films (of any settings, numbers of trajectories and numbers of events) follow one another and all take their numbers from the same generator, whose numbers are independent and uniform on [0, 1), then their reflectances and transmittances are independent. For k runs with the same settings, the average of the reflectance (or transmittance) has the expected value of one run and a variance smaller by the factor k; the squared standard error calculated from the spread of the results has that variance as its expected value; the average tends to the expected value with probability one; and it is within z standard errors with a probability that tends to that of the normal distribution.", "quantifier": "all sequences of smooth-film runs in the documented domain, all probability spaces, all starting positions in the stream, own and module generator, all numbers of runs", "why_tests_cant": "The claim must hold for every stream the random generator could deliver; a test sees one seed.", "anchors": ["structcol/montecarlo.py:initialize", "structcol/montecarlo.py:sample_angles", "structcol/montecarlo.py:sample_step", "structcol/__init__.py:rng", "structcol/detector.py:calc_refl_trans"]}
{"id": "C158", "title": "sphere runs with a random number generator of one's own, re-runs included", "statement": "If initialize, sample_angles, sample_step and calc_refl_trans all get the same generator as rng (or none of them any), the result of a sphere run depends on the state of that generator alone, also when reflected light is run again; the other generator is not touched, and this one ends at a later position of the same stream, past all the numbers that the run has read, so that successive runs use different numbers. Each number has one use: two for the place at which a photon enters, then, generation by generation, those of the azimuths, the scattering angles and the steps, each generation having one event more than the one before; no number is used for two photons, two events or two generations. If the numbers are independent and uniform on [0, 1), the expected reflectance and transmittance are the same for all numbers of photons and all positions at which the run starts, they are fractions with sum at most 1 (exactly 1 without absorption), and a run of N photons is off by e or more with probability at most 2 exp(-2 N e^2).", "quantifier": "all sphere runs (statistics: documented domain, hemispherical detector, reflected light shared out or always run again), all generator states, all probability spaces, all numbers of photons and events", "why_tests_cant": "The claim must hold for every stream the random generator could deliver; a test sees one seed.", "anchors": ["structcol/montecarlo.py:initialize", "structcol/montecarlo.py:sample_angles", "structcol/montecarlo.py:sample_step", "structcol/detector.py:calc_refl_trans", "structcol/detector.py:run_sphere_fresnel_traj"]}
{"id": "C159", "title": "sphere runs one after the other with the same generator", "statement": "If one runs sphere simulations one after the other with the same random number generator as rng (for initialize, sample_angles, sample_step and calc_refl_trans), and if light reflected back into the sphere is either never run again or always (max_stuck negative), then every run takes a number of numbers that is known beforehand: for N photons and n events, N times 2 plus the sum over the generations g (one, or 21 with re-runs) of 2 (n + g - 1) + (n + g). If the generator's numbers are independent and uniform, the runs are therefore independent, whatever their settings. Repeated runs with the same settings are also identically distributed: their average has the expected value of one run, its variance is that of one run divided by the number of runs, the standard error from the spread of the results is right on average, the average tends to the expected value with probability one, and the usual error bars hold in the limit.", "quantifier": "all sequences of sphere runs in the documented domain with a hemispherical detector, all generator states, numbers of photons and events, all probability spaces with numbers strictly between 0 and 1", "why_tests_cant": "The claim must hold for every stream the random generator could deliver; a test sees one seed.", "anchors": ["structcol/montecarlo.py:initialize", "structcol/montecarlo.py:sample_angles", "structcol/montecarlo.py:sample_step", "structcol/detector.py:calc_refl_trans", "structcol/detector.py:run_sphere_fresnel_traj"]}
{"id": "C160", "title": "the scattering angles of reflected trajectories", "statement": "calc_thetas_event_traj, given the angles of a simulation and the events at which its trajectories are reflected, returns for each reflected trajectory, at the event at which it is reflected, the scattering angle by which it was turned towards the surface, and zeros elsewhere.", "quantifier": "all simulations, all arrays of angles and event numbers, all numbers of events and trajectories", "why_tests_cant": "The claim ranges over every array size and content; tests fix a handful of shapes and seeds.", "anchors": ["structcol/event_distribution.py:calc_thetas_event_traj", "structcol/montecarlo.py:sample_angles", "structcol/montecarlo.py:Trajectory.scatter"]}
{"id": "C161", "title": "the phases of the incident light", "statement": "Unless coherent=True, the initial fields of different trajectories are incoherent: averaged over the phases drawn, the reflectance with interference equals the one without, whatever happens to the light in the sample. With polarized=True the incident light is linearly polarised along x; with polarized=False it is unpolarised: any polariser passes half of it on average.", "quantifier": "all simulated histories (scattering matrices, angles, steps, exits, reflectances), all numbers of trajectories, averaged over all phases drawn; all polarisers", "why_tests_cant": "The claim ranges over every array size and content; tests fix a handful of shapes and seeds.", "anchors": ["structcol/montecarlo.py:initialize", "structcol/montecarlo.py:Trajectory.calc_fields", "structcol/detector_polarization_phase.py:calc_refl_phase_fields"]}
