{"id": "C01", "title": "Exactly one reference point", "statement": "A measurement request is accepted past validation only if exactly one of tref_in and fref_in is given; with none or both the call raises and nothing of the caller's data is changed. The result then carries tref_out exactly when tref_in was given and fref_out exactly when fref_in was given, never both.", "quantifier": "every combination of supplied/omitted tref_in, fref_in and every outcome of the rest of the pipeline", "why_tests_cant": "The whole space of argument combinations times pipeline outcomes has to be covered, including the early-return path.", "anchors": ["gw_eccentricity/eccDefinition.py:eccDefinition.__init__", "gw_eccentricity/eccDefinition.py:make_return_dict_for_eccentricity_and_mean_anomaly"]}
{"id": "C02", "title": "Method dispatch", "statement": "measure_eccentricity runs precisely the class registered for the requested method name (six names) and raises for every other string; the two frames accepted are 'inertial' and 'coprecessing'.", "quantifier": "every method string and frame string", "why_tests_cant": "The rejected strings are infinite in number.", "anchors": ["gw_eccentricity/gw_eccentricity.py:measure_eccentricity", "gw_eccentricity/gw_eccentricity.py:get_available_methods", "gw_eccentricity/eccDefinition.py:eccDefinition.__init__"]}
{"id": "C03", "title": "Waveform dictionary shape", "statement": "A dataDict is accepted past shape validation iff it has 't', it has either 'hlm' or both 'amplm' and 'phaselm', and for neither the eccentric nor the zeroecc data are 'hlm' and one of 'amplm'/'phaselm' given together.", "quantifier": "every set of keys the caller may supply", "why_tests_cant": "2^10 key sets (more with unrecognised keys) and the accept set must be exact in both directions.", "anchors": ["gw_eccentricity/eccDefinition.py:process_data_dict", "gw_eccentricity/eccDefinition.py:get_amplm_from_dataDict", "gw_eccentricity/eccDefinition.py:get_phaselm_from_dataDict"]}
{"id": "C04", "title": "Option dictionaries", "statement": "For any option dictionary (extra_kwargs and every nested kwargs dict): an unknown key is rejected; otherwise every documented key ends up present, every value the user gave is kept unchanged, every other key has its default, no other key appears, and validating again changes nothing.", "quantifier": "every user dictionary and every default dictionary", "why_tests_cant": "Dictionaries are unbounded in keys and values.", "anchors": ["gw_eccentricity/utils.py:check_kwargs_and_set_defaults"]}
{"id": "C05", "title": "debug_level semantics", "statement": "A diagnostic message raises iff debug_level is 2, warns iff debug_level is 1 or it is 0 and the message is important, is silent otherwise, and any debug_level outside {-1,0,1,2} is an error the first time a message is issued.", "quantifier": "every integer debug_level, importance flag and message", "why_tests_cant": "Every integer level must be covered.", "anchors": ["gw_eccentricity/utils.py:debug_message"]}
{"id": "C06", "title": "Result shape", "statement": "On success eccentricity, mean_anomaly and the returned reference array all have the same length, which is at least one and at most the length of the input; scalar input gives scalar outputs and array input gives arrays.", "quantifier": "every waveform, reference input and pipeline outcome", "why_tests_cant": "Needs to hold for every data-dependent filtering result.", "anchors": ["gw_eccentricity/eccDefinition.py:measure_ecc", "gw_eccentricity/eccDefinition.py:make_return_dict_for_eccentricity_and_mean_anomaly"]}
{"id": "C07", "title": "Which reference times are answered", "statement": "For time input the times answered are exactly the requested times inside [max(first pericenter, first apocenter), min(last pericenter, last apocenter)], in the requested order and with repetition preserved; if none is inside the call raises.", "quantifier": "every list of reference times and every set of extrema", "why_tests_cant": "Data dependent cut-offs over arbitrary real arrays.", "anchors": ["gw_eccentricity/eccDefinition.py:measure_ecc"]}
{"id": "C08", "title": "No extrapolation", "statement": "Eccentricity and mean anomaly are evaluated only at times inside the range of both extrema interpolants and between the first and last pericenter; asking the measurement object for a time outside that range raises.", "quantifier": "every time at which the object evaluates a result, every extrema set", "why_tests_cant": "One out-of-range evaluation anywhere in the input space would silently extrapolate.", "anchors": ["gw_eccentricity/eccDefinition.py:compute_eccentricity", "gw_eccentricity/eccDefinition.py:compute_mean_anomaly", "gw_eccentricity/eccDefinition.py:check_input_limits", "gw_eccentricity/eccDefinition.py:derivative_of_eccentricity"]}
{"id": "C09", "title": "Which reference frequencies are answered", "statement": "For frequency input the frequencies answered are exactly the requested ones with fref_min <= f < fref_max (bounds as returned by get_fref_bounds), order preserved; if none qualifies the call raises.  The public documentation says f <= fref_max: the two disagree precisely at the upper bound.", "quantifier": "every list of reference frequencies and every average-frequency array", "why_tests_cant": "Boundary values over real arrays.", "anchors": ["gw_eccentricity/eccDefinition.py:get_fref_out", "gw_eccentricity/eccDefinition.py:get_fref_bounds"]}
{"id": "C10", "title": "Zero-eccentricity fallback", "statement": "Eccentricity and mean anomaly are forced to zero only if return_zero_if_small_ecc_failure is set, fewer than two pericenters or apocenters were found, and the waveform has more than five orbits; then all requested reference points are returned unfiltered with zeros.  Too few extrema in any other circumstance raises.", "quantifier": "every extrema count, orbit count and flag value", "why_tests_cant": "Branch logic over unbounded counts and reals.", "anchors": ["gw_eccentricity/eccDefinition.py:check_num_extrema", "gw_eccentricity/eccDefinition.py:set_eccentricity_and_mean_anomaly_to_zero", "gw_eccentricity/eccDefinition.py:measure_ecc"]}
{"id": "C11", "title": "Eccentricity lies in [0,1)", "statement": "If the pericenter frequency is at least the apocenter frequency and both are positive at a time, the reported eccentricity there is a real number in [0,1).", "quantifier": "every pair of real frequencies 0 < omega_a <= omega_p", "why_tests_cant": "Continuum of inputs through arctan2/cos/sin.", "anchors": ["gw_eccentricity/eccDefinition.py:compute_eccentricity", "gw_eccentricity/eccDefinition.py:et_from_ew22_0pn"]}
{"id": "C12", "title": "Sign and monotonicity of eccentricity", "statement": "The reported eccentricity is zero iff the pericenter and apocenter frequencies agree, negative iff the pericenter frequency is the smaller, and strictly increases with the ratio omega_p/omega_a.", "quantifier": "all positive real frequency pairs", "why_tests_cant": "Continuum of inputs.", "anchors": ["gw_eccentricity/eccDefinition.py:compute_eccentricity", "gw_eccentricity/eccDefinition.py:et_from_ew22_0pn"]}
{"id": "C13", "title": "Newtonian limit", "statement": "For a Keplerian orbit of eccentricity e the reported eccentricity is exactly e when the instantaneous (2,2) frequencies at pericenter and apocenter of that orbit are supplied (this is what the Eq.(8) conversion is for).", "quantifier": "every orbital eccentricity 0 <= e < 1 and every orbit size", "why_tests_cant": "An exact identity over a continuum; a test can only show closeness at samples.", "anchors": ["gw_eccentricity/eccDefinition.py:compute_eccentricity", "gw_eccentricity/eccDefinition.py:et_from_ew22_0pn"]}
{"id": "C14", "title": "Unit independence", "statement": "For an object whose waveform is loaded: measuring in other time units (t -> k t + c, frequencies -> f/k, reference points transformed alike) leaves eccentricity and mean anomaly unchanged and transforms the returned reference points accordingly; in other strain units (amplitudes times a positive constant) the series searched for extrema is the same or the same times that constant. (Whole calls, in which absolute tolerances intervene, are C85.)", "quantifier": "every waveform, scale k > 0, shift c", "why_tests_cant": "Metamorphic relation over all inputs.", "anchors": ["gw_eccentricity/eccDefinition.py:measure_ecc", "gw_eccentricity/eccDefinition.py:compute_mean_anomaly", "gw_eccentricity/utils.py:peak_time_via_quadratic_fit"]}
{"id": "C15", "title": "Mean anomaly", "statement": "Mean anomaly is in [0, 2 pi), is 0 at every pericenter, grows linearly in time from 0 to 2 pi between consecutive pericenters, and does not depend on how many pericenters precede the current orbit.", "quantifier": "every strictly increasing list of pericenter times and every time between the first and last", "why_tests_cant": "Arbitrarily many pericenters and real times.", "anchors": ["gw_eccentricity/eccDefinition.py:compute_mean_anomaly"]}
{"id": "C16", "title": "Frequency from phase", "statement": "The frequency computed from a uniformly sampled phase is exact for every polynomial phase of degree at most four at every sample including the four edge samples, is linear in the phase and insensitive to a constant phase offset.", "quantifier": "every array length >= 5, step, polynomial, position", "why_tests_cant": "Every length and every position must use the right stencil.", "anchors": ["gw_eccentricity/utils.py:time_deriv_4thOrder", "gw_eccentricity/eccDefinition.py:get_omegalm_from_phaselm"]}
{"id": "C17", "title": "Merger time", "statement": "The merger time is exact when the amplitude is a parabola around its maximum, is unaffected by positive rescaling of the amplitude, and moves with the time axis under shift and rescaling.", "quantifier": "every uniformly sampled time array, every parabola, every peak position including the array edges", "why_tests_cant": "Continuum of parabolas and all clamp cases.", "anchors": ["gw_eccentricity/utils.py:peak_time_via_quadratic_fit"]}
{"id": "C18", "title": "Total amplitude", "statement": "The amplitude used to locate the merger does not depend on the order of the modes or on their phases, is at least every single mode's amplitude, is zero only when all modes vanish, and scales with the strain.", "quantifier": "every set of modes and values", "why_tests_cant": "Unbounded mode sets.", "anchors": ["gw_eccentricity/utils.py:amplitude_using_all_modes"]}
{"id": "C19", "title": "Precessing combination reduces to the (2,2) mode", "statement": "When the coprecessing (2,2) and (2,-2) modes satisfy the nonprecessing symmetry, the quantities used for a precessing system coincide with the (2,2) ones, and so do the measured results; if (2,-2) is absent in a precessing measurement, the call raises.", "quantifier": "every waveform", "why_tests_cant": "All mode arrays.", "anchors": ["gw_eccentricity/eccDefinition.py:get_amp_phase_omega_gw"]}
{"id": "C20", "title": "Exclusion of the last orbits", "statement": "num_orbits_to_exclude_before_merger: None keeps all data, a negative value raises, otherwise every array is cut at the same sample, one whose phase is nearest to 4 pi n before merger; excluding more orbits never keeps more samples (for increasing phase); a waveform with fewer orbits raises.", "quantifier": "every phase array and every n", "why_tests_cant": "Arbitrary real arrays and orbit counts.", "anchors": ["gw_eccentricity/eccDefinition.py:process_data_dict", "gw_eccentricity/eccDefinition.py:get_index_at_num_orbits_earlier_than_merger"]}
{"id": "C21", "title": "Caller's waveform data are not modified", "statement": "A measurement leaves the caller's dataDict (keys, mode dictionaries and arrays) as it was, whether it succeeds or raises.", "quantifier": "every dataDict, every options combination and every point at which the call may raise", "why_tests_cant": "Aliasing between caller data and internal state depends on which keys are supplied and on the failure point.", "anchors": ["gw_eccentricity/eccDefinition.py:process_data_dict", "gw_eccentricity/eccDefinition.py:transform_inertial_to_coprecessing", "gw_eccentricity/eccDefinition.py:get_amp_phase_omega_data", "gw_eccentricity/eccDefinitionUsingFrequencyFits.py:find_extrema"]}
{"id": "C22", "title": "Repeatability", "statement": "Calling the measurement twice with the same dataDict and options gives the same answer.", "quantifier": "every history of calls sharing one dataDict", "why_tests_cant": "Depends on hidden state carried by the caller's dictionaries.", "anchors": ["gw_eccentricity/eccDefinition.py:process_data_dict", "gw_eccentricity/eccDefinition.py:transform_inertial_to_coprecessing"]}
{"id": "C23", "title": "Good extrema are a contiguous part of those found", "statement": "The pericenters (apocenters) used are a contiguous run of those found by the finder, in order, and nothing is invented; at either end of the used data at most one pericenter lies beyond the outermost apocenter and vice versa.", "quantifier": "every increasing pericenter/apocenter arrays and phase data", "why_tests_cant": "All combinatorial interleavings.", "anchors": ["gw_eccentricity/eccDefinition.py:get_good_extrema", "gw_eccentricity/eccDefinition.py:drop_extra_extrema_at_ends"]}
{"id": "C24", "title": "Missed extremum handling", "statement": "If the phase separation of consecutive extrema first grows by more than a factor 1.5 in the second half of the list, every extremum after the one preceding the gap is dropped, so the retained list has no such growth; symmetrically for the first half.  The documentation says retention at the start begins after the gap.", "quantifier": "every phase array and extrema list", "why_tests_cant": "Unbounded lists.", "anchors": ["gw_eccentricity/eccDefinition.py:drop_extrema_if_extrema_jumps"]}
{"id": "C25", "title": "Spuriously close extrema handling", "statement": "If consecutive extrema closer than 4 pi in phase occur only in the second half (first half), the later (earlier) part is dropped so that no too-close pair remains there; otherwise nothing is dropped.", "quantifier": "every phase array and extrema list", "why_tests_cant": "Unbounded lists.", "anchors": ["gw_eccentricity/eccDefinition.py:drop_extrema_if_too_close"]}
{"id": "C26", "title": "Mid-point apocenters", "statement": "With treat_mid_points_between_pericenters_as_apocenters there is exactly one apocenter between each two consecutive pericenters: n-1 in number and strictly between them when they are at least two samples apart.", "quantifier": "every increasing index list", "why_tests_cant": "Unbounded lists.", "anchors": ["gw_eccentricity/eccDefinition.py:get_apocenters_from_pericenters"]}
{"id": "C27", "title": "Alternation diagnostic", "statement": "With debug_level >= 1 the 'do not appear alternately' warning is given iff pericenters and apocenters do not strictly alternate in time; with lower debug levels never.", "quantifier": "every pair of extrema lists without a common sample", "why_tests_cant": "All interleavings.", "anchors": ["gw_eccentricity/eccDefinition.py:check_pericenters_and_apocenters_appear_alternately"]}
{"id": "C28", "title": "Orbit averaged frequency", "statement": "Each orbit-averaged frequency equals the phase accumulated between consecutive extrema over the elapsed time, lies between the smallest and largest instantaneous average over that orbit, and remains attached to the temporal midpoint of its own orbit after pericenter and apocenter data are merged and sorted in time.", "quantifier": "every extrema lists and phase data", "why_tests_cant": "Sorting permutation and list lengths are data dependent.", "anchors": ["gw_eccentricity/eccDefinition.py:compute_orbit_averaged_omega_gw_between_extrema", "gw_eccentricity/eccDefinition.py:get_t_average_for_orbit_averaged_omega_gw"]}
{"id": "C29", "title": "Frequency inputs need an increasing average frequency", "statement": "A reference frequency is converted to a time only if the average frequency is strictly increasing over the samples used; otherwise the call raises.  When it is converted, the interpolation nodes are valid and the requested frequency is inside them.", "quantifier": "every average-frequency array", "why_tests_cant": "Arbitrary arrays.", "anchors": ["gw_eccentricity/eccDefinition.py:check_monotonicity_of_omega_gw_average", "gw_eccentricity/eccDefinition.py:compute_tref_in_and_fref_out_from_fref_in"]}
{"id": "C30", "title": "Reference frequency bounds", "statement": "get_fref_bounds returns the minimum and maximum of the average frequency over 2 pi; once an average has been computed later calls return bounds of that same average whatever method is passed.", "quantifier": "every sequence of calls", "why_tests_cant": "History dependence.", "anchors": ["gw_eccentricity/eccDefinition.py:get_fref_bounds"]}
{"id": "C31", "title": "Adaptive degree search", "statement": "The degree search for the fit through extrema always terminates; it returns a fit whose sampled derivative does not change sign in the checked sense, or a spline when even degree (1,1) fails; the fit returned is never underdetermined; a raised degree is reverted as soon as it fails; and the degrees recorded are the ones of the fit returned. At debug level 2 a search that returns has only raised the degrees, up to the last fit that the data determine.", "quantifier": "every behaviour of the fitting routine as a function of the degrees, every starting degrees and number of points", "why_tests_cant": "Unbounded search driven by an arbitrary oracle.", "anchors": ["gw_eccentricity/eccDefinition.py:get_rational_fit_for_extrema", "gw_eccentricity/eccDefinition.py:get_approximate_degree_for_rational_fit", "gw_eccentricity/rational_fit.py:is_underdetermined"]}
{"id": "C32", "title": "Automatic degree reduction", "statement": "For requested degrees m,n >= 0 and N data points: if N < 2 it raises, otherwise it returns degrees not exceeding the requested ones whose sum is exactly min(m+n, N-2), hence as large as the data determine.", "quantifier": "all naturals m, n, N", "why_tests_cant": "Unbounded arithmetic domain.", "anchors": ["gw_eccentricity/rational_fit.py:get_reduced_degrees", "gw_eccentricity/rational_fit.py:is_underdetermined"]}
{"id": "C33", "title": "Rational fit evaluates to what was fitted", "statement": "Evaluating the returned rational fit at the data abscissae gives exactly the fitted values produced by the least squares iteration (away from poles, and unless a norm equals the breakdown threshold exactly), although evaluation uses a different, unweighted basis; and the result does not depend on the units or origin of the abscissa.", "quantifier": "every data set, weights, degrees and coefficients", "why_tests_cant": "Algebraic identity over all inputs.", "anchors": ["gw_eccentricity/rational_fit.py:RationalFit.fit", "gw_eccentricity/rational_fit.py:RationalFit.predict", "gw_eccentricity/rational_fit.py:_arnoldi_basis", "gw_eccentricity/rational_fit.py:_eval_arnoldi_basis"]}
{"id": "C34", "title": "Best iterate", "statement": "The fit returned is one of the iterates and no recorded iterate has a smaller residual; the number of iterations does not exceed max_iterations.", "quantifier": "every residual sequence", "why_tests_cant": "Arbitrary sequences.", "anchors": ["gw_eccentricity/rational_fit.py:RationalFit.fit"]}
{"id": "C35", "title": "Interpolation guard", "statement": "Interpolation without allowExtrapolation raises if any query lies more than 1e-10 outside the nodes, raises on nodes that are not strictly increasing, on fewer than two nodes or on mismatched lengths, and lowers the spline order to n-1 for n <= k nodes without changing the caller's order.", "quantifier": "every node/query arrays and options", "why_tests_cant": "Arbitrary arrays.", "anchors": ["gw_eccentricity/utils.py:interpolate", "gw_eccentricity/utils.py:get_interpolant"]}
{"id": "C36", "title": "Short-segment selection", "statement": "With use_only_these_many_orbits the data used are a contiguous piece of the waveform, all arrays cut identically; for increasing phase and in-range references the reference samples are inside or at the edge of the piece and half of the requested orbits on each side are included when available.", "quantifier": "every phase array, reference points and orbit number", "why_tests_cant": "Edge handling over arbitrary arrays.", "anchors": ["gw_eccentricity/eccDefinition.py:_get_segment_indices", "gw_eccentricity/eccDefinition.py:_update_waveform_data_segment", "gw_eccentricity/eccDefinition.py:get_amp_phase_omega_gw_segments"]}
{"id": "C37", "title": "Residual data", "statement": "Residual amplitude/frequency are taken after aligning the mergers: they do not depend on the time origin of the quasicircular waveform, vanish when it equals the eccentric one, and a quasicircular waveform that starts late or ends before merger is rejected.", "quantifier": "every pair of waveforms and shifts", "why_tests_cant": "Continuum.", "anchors": ["gw_eccentricity/eccDefinition.py:compute_res_amp_gw_and_res_omega_gw"]}
{"id": "C38", "title": "Pericenters are maxima, apocenters minima", "statement": "The apocenters of a data set are the pericenters of its negative for each find_peaks based method; unknown extrema types raise; Residual methods raise unless all quasicircular data are present.", "quantifier": "every data array and peak finder", "why_tests_cant": "Relation over all inputs.", "anchors": ["gw_eccentricity/eccDefinitionUsingAmplitude.py:find_extrema", "gw_eccentricity/eccDefinitionUsingResidualAmplitude.py"]}
{"id": "C39", "title": "Fits methods terminate with increasing extrema", "statement": "The extrema search of the FrequencyFits/AmplitudeFits methods terminates for every waveform and returns strictly increasing sample indices inside the data.", "quantifier": "every data set, every behaviour of the curve fit and of the peak finder", "why_tests_cant": "Nested data-driven loops with several exit conditions.", "anchors": ["gw_eccentricity/eccDefinitionUsingFrequencyFits.py:find_extrema", "gw_eccentricity/eccDefinitionUsingFrequencyFits.py:FindExtremaNearIdxRef"]}
{"id": "C40", "title": "Fits methods leave the time axis alone", "statement": "After the extrema search of the fits methods the time array has its original values, on normal return and when the search raises.", "quantifier": "every data set and failure point", "why_tests_cant": "Failure points inside loops.", "anchors": ["gw_eccentricity/eccDefinitionUsingFrequencyFits.py:find_extrema"]}
{"id": "C41", "title": "Fit envelope normalisation", "statement": "The quasicircular model used as envelope or secular trend takes the fitted value and slope at the reference time and is positive and increasing before its singularity.", "quantifier": "all positive parameters", "why_tests_cant": "Continuum.", "anchors": ["gw_eccentricity/eccDefinitionUsingFrequencyFits.py:envelope_fitting_function", "gw_eccentricity/utils.py:QusicircularFitForMappingFrequencyToTime"]}
{"id": "C42", "title": "Spin filter mask", "statement": "The low-pass mask is between 0 and 1, is 1 below the taper, 0 above it, 1/2 at the cutoff and never increases with frequency, so filtering never amplifies a frequency component.", "quantifier": "every frequency grid, positive cutoff and positive taper width", "why_tests_cant": "Continuum.", "anchors": ["gw_eccentricity/spin_filter.py:_make_lowpass_mask"]}
{"id": "C43", "title": "Spin filter frequencies", "statement": "The detected frequencies satisfy f_ecc <= f_cutoff <= f_spin with the default windows, whatever the spectrum, if the first estimate of the spin frequency is positive.", "quantifier": "every spectrum", "why_tests_cant": "Arbitrary spectra.", "anchors": ["gw_eccentricity/spin_filter.py:_get_fcut_fecc_fspin"]}
{"id": "C44", "title": "Spin filter recombination", "statement": "The recombined data have one value per input sample, each a weighted mean of the filtered segments covering it, hence within their range; if filtering leaves every segment unchanged, the covered data are unchanged.", "quantifier": "every segmentation", "why_tests_cant": "Arbitrary overlap patterns.", "anchors": ["gw_eccentricity/spin_filter.py:_combine_segments", "gw_eccentricity/spin_filter.py:apply_filter"]}
{"id": "C45", "title": "Spin filter off means untouched data", "statement": "If the oscillation check says no filtering is needed, the amplitude, phase and frequency handed to the measurement are the originals; originals are always available under *_original; in any case amplitude and frequency decisions are independent.", "quantifier": "every data and decision outcome", "why_tests_cant": "All decision combinations.", "anchors": ["gw_eccentricity/spin_filter.py:check_and_filter_spin_induced_oscillations", "gw_eccentricity/spin_filter.py:check_filter_requirement"]}
{"id": "C46", "title": "Spin filter segmentation terminates", "statement": "Segment centres start at the first sample, strictly increase and reach the end in finitely many steps whenever the interpolated window length stays above a positive bound.", "quantifier": "every window-length function", "why_tests_cant": "Unbounded loop.", "anchors": ["gw_eccentricity/spin_filter.py:apply_filter"]}
{"id": "C47", "title": "Mode packing for frame rotation", "statement": "Packing modes for the frame rotation puts every (l,m), l from 2 to l_max, in the column expected by the rotation library, raises if any is missing, and unpacking restores each mode.", "quantifier": "every l_max and mode set", "why_tests_cant": "Unbounded l_max.", "anchors": ["gw_eccentricity/load_data.py:package_modes_for_scri", "gw_eccentricity/load_data.py:unpack_scri_modes"]}
{"id": "C48", "title": "One frame throughout", "statement": "After a precessing inertial-frame waveform is converted, all mode data used by the measurement, eccentric and quasicircular, are in the coprecessing frame.", "quantifier": "every combination of supplied keys", "why_tests_cant": "Key combinations times two suffixes.", "anchors": ["gw_eccentricity/eccDefinition.py:transform_inertial_to_coprecessing", "gw_eccentricity/eccDefinition.py:process_data_dict"]}
{"id": "C49", "title": "Parallel run equals serial run", "statement": "Running the posterior post-processing with any number of MPI workers gives the same per-sample results as the serial run, for every order in which workers answer.", "quantifier": "every selection of distinct samples, number of workers, batch size >= 1 and every schedule of message arrivals", "why_tests_cant": "Exponentially many interleavings.", "anchors": ["gw_eccentricity/postprocess/postprocess_cli.py:master", "gw_eccentricity/postprocess/postprocess_cli.py:worker"]}
{"id": "C50", "title": "Every sample exactly once, clean shutdown", "statement": "In the MPI run every pending sample is dispatched exactly once, the master can always make progress until all are done, and every worker receives exactly one stop message with no message left over.", "quantifier": "every non-empty selection of distinct existing samples, every number of workers >= 1, batch size >= 1 and schedule", "why_tests_cant": "Liveness and exactly-once over all schedules.", "anchors": ["gw_eccentricity/postprocess/postprocess_cli.py:master", "gw_eccentricity/postprocess/postprocess_cli.py:worker"]}
{"id": "C51", "title": "Crash and resume", "statement": "If a run is killed at any point and restarted with the same arguments any number of times, the final table equals that of an uninterrupted run; samples in the checkpoint are not recomputed.", "quantifier": "every crash point, every number of restarts and every schedule", "why_tests_cant": "All crash points.", "anchors": ["gw_eccentricity/postprocess/postprocess_cli.py:master", "gw_eccentricity/postprocess/postprocess_cli.py:save_checkpoint"]}
{"id": "C52", "title": "Bounded loss at a crash", "statement": "With save_every = k >= 1, at every crash point fewer than k of the results received since the last checkpoint are missing from the checkpoint, each worker holds at most one unreceived batch, and the checkpoint never contains a wrong result.", "quantifier": "every crash point and schedule", "why_tests_cant": "All crash points.", "anchors": ["gw_eccentricity/postprocess/postprocess_cli.py:master", "gw_eccentricity/postprocess/postprocess_cli.py:save_checkpoint"]}
{"id": "C53", "title": "Checkpoint keeps earlier work", "statement": "Saving a checkpoint never loses results that were in the checkpoint before.", "quantifier": "every sequence of runs with arbitrary sample selections", "why_tests_cant": "Histories of runs.", "anchors": ["gw_eccentricity/postprocess/postprocess_cli.py:master", "gw_eccentricity/postprocess/postprocess_cli.py:save_checkpoint"]}
{"id": "C54", "title": "One row per requested sample", "statement": "The final table has exactly one row per requested sample, in the requested order, joined with that sample's result.", "quantifier": "every sample selection", "why_tests_cant": "Join multiplicities.", "anchors": ["gw_eccentricity/postprocess/postprocess_cli.py:save_final", "gw_eccentricity/postprocess/postprocess_cli.py:parse_samples"]}
{"id": "C55", "title": "Failure isolation", "statement": "Measuring one posterior sample never raises for bad data: any error becomes a 'fail' row for that sample and does not affect other samples; rows are in input order.", "quantifier": "every waveform/measurement behaviour, every posterior with distinct labels", "why_tests_cant": "Arbitrary exceptions.", "anchors": ["gw_eccentricity/postprocess/core.py:postprocess_sample", "gw_eccentricity/postprocess/postprocess.py:PostProcess.postprocess"]}
{"id": "C56", "title": "Common frequency range", "statement": "The range returned by get_minmax_fref is exactly the intersection of the ranges of the successful samples; it raises iff no sample succeeded.", "quantifier": "every list of results", "why_tests_cant": "Unbounded lists.", "anchors": ["gw_eccentricity/postprocess/core.py:FrefBoundsResults.get_minmax_fref"]}
{"id": "C57", "title": "Summary counts", "statement": "The summary counts every sample; the success percentage is 100*successes/total, adds up to 100 with the failure percentage, and the listed values are exactly those of the successful samples in order; empty results raise.", "quantifier": "every list of results", "why_tests_cant": "Unbounded lists.", "anchors": ["gw_eccentricity/postprocess/core.py:PostProcessResults.get_summary"]}
{"id": "C58", "title": "Sample selection syntax", "statement": "--samples a:b[:c] selects exactly range(a,b,c), a comma list selects exactly the listed indices in order, omitted selects everything.", "quantifier": "every integer argument", "why_tests_cant": "Unbounded.", "anchors": ["gw_eccentricity/postprocess/postprocess_cli.py:parse_samples"]}
{"id": "C59", "title": "SXS mass ratio", "statement": "Parameters read from SXS metadata always report mass ratio q >= 1, or raise.", "quantifier": "every pair of masses", "why_tests_cant": "Continuum.", "anchors": ["gw_eccentricity/load_data.py:get_params_dict_from_sxs_metadata"]}
{"id": "C60", "title": "Junk removal keeps modes aligned", "statement": "Removing junk radiation keeps a suffix of the time array, starting at the sample nearest to where the requested number of orbits has passed, and the same suffix of every mode; the last samples are never lost.", "quantifier": "every time array and mode set", "why_tests_cant": "Arbitrary arrays.", "anchors": ["gw_eccentricity/load_data.py:reomve_junk_from_nr_data"]}
{"id": "C61", "title": "Quasicircular partner of NR data covers the waveform", "statement": "The quasicircular waveform produced for NR data has their mass ratio and spins and no eccentricity, starts no later than the NR data and ends at its own end, with times and modes cut alike; its starting frequency is that of a binary as long as the NR data, halved as often as needed and not more often. Producing it ends whenever lower starting frequencies give long enough waveforms.", "quantifier": "every pair of time arrays", "why_tests_cant": "Index arithmetic on arbitrary arrays.", "anchors": ["gw_eccentricity/load_data.py:get_zeroecc_dataDict_for_nr"]}
{"id": "C62", "title": "Mean anomaly option is honoured", "statement": "A waveform requested with a given initial mean anomaly depends on that value.", "quantifier": "every parameter set", "why_tests_cant": "Non-interference over all inputs.", "anchors": ["gw_eccentricity/load_data.py:load_LAL_waveform_using_hack", "gw_eccentricity/load_data.py:generate_LAL_waveform"]}
{"id": "C63", "title": "Method comparison", "statement": "Errors between two methods are computed on the common times only, are nonnegative, symmetric in the two methods and zero when the methods agree; mean anomalies differing by 2 pi count as equal.", "quantifier": "every pair of result arrays", "why_tests_cant": "Arbitrary arrays.", "anchors": ["gw_eccentricity/compare_methods.py"]}
{"id": "C64", "title": "Truncation by lowest frequency is usable", "statement": "truncate_waveform_by_flow returns a truncated waveform for a valid waveform and method.", "quantifier": "every input", "why_tests_cant": "Claims success for all valid inputs.", "anchors": ["gw_eccentricity/truncate_waveform_by_flow.py"]}
{"id": "C65", "title": "Peak-finder width", "statement": "The minimum width handed to the peak finder, unless the user gives one, is a quarter of the number of samples in the last orbit but one before the merger, rounded down; it is nonnegative for increasing phase and independent of the time unit. The alternative width for a given length of time is the largest number of time steps that fit into it.", "quantifier": "every waveform", "why_tests_cant": "Arbitrary arrays.", "anchors": ["gw_eccentricity/eccDefinition.py:get_width_for_peak_finder_from_phase_gw", "gw_eccentricity/eccDefinition.py:get_width_for_peak_finder_for_dimless_units"]}
{"id": "C66", "title": "Diagnostics on the extrema", "statement": "The checks on the extrema that are used warn (level 1) or raise (level 2) exactly when two neighbouring extrema are less than half an orbit apart, when a step is closer to half an orbit than to a full one, when a step is more than 1.5 times the step before, or when more than half of the extrema found were dropped; the times printed are those of the later extremum of each offending pair; below level 1 they say nothing.", "quantifier": "every sequence of extrema with increasing phases, every debug level", "why_tests_cant": "Quantifies over all extrema sequences and every offending position.", "anchors": ["gw_eccentricity/eccDefinition.py:check_extrema_separation", "gw_eccentricity/eccDefinition.py:check_if_dropped_too_many_extrema"]}
{"id": "C67", "title": "The debug level never changes a result", "statement": "A measurement at debug level -1, 0 or 1 returns the same values, or raises the same exception, as at level 0; at any level, in particular the strict level 2, a measurement that succeeds returns the values of level 0.", "quantifier": "every waveform, reference input and debug level", "why_tests_cant": "Compares two runs for all inputs, through every check that can warn.", "anchors": ["gw_eccentricity/eccDefinition.py:measure_ecc", "gw_eccentricity/utils.py:debug_message"]}
{"id": "C68", "title": "Measuring again on the same object", "statement": "After a successful measurement, and whatever requests for averages or bounds were made since, measuring again on the same object returns the same values.", "quantifier": "every object, every sequence of requests in between", "why_tests_cant": "History dependence over unbounded sequences of calls.", "anchors": ["gw_eccentricity/eccDefinition.py:measure_ecc", "gw_eccentricity/eccDefinition.py:get_rational_fit_for_extrema", "gw_eccentricity/eccDefinition.py:get_fref_bounds"]}
{"id": "C69", "title": "Quasicircular partner of a LAL waveform", "statement": "Asked for its quasicircular partner, the LAL loader returns one generated with the same options except eccentricity and starting frequency, and starting no later than the waveform; without the request none is generated; if no starting frequency gives one, the loader does not return.", "quantifier": "every option set and waveform model", "why_tests_cant": "Loop over unboundedly many retries.", "anchors": ["gw_eccentricity/load_data.py:load_LAL_waveform"]}
{"id": "C70", "title": "Physical units are the dimensionless waveform rescaled", "statement": "For a scale-invariant waveform model, the LAL waveform in physical units is the dimensionless one with times multiplied by the total mass in seconds and modes by G M/(c^2 D).", "quantifier": "every mass, distance and option set", "why_tests_cant": "Continuum of masses and distances.", "anchors": ["gw_eccentricity/load_data.py:generate_LAL_waveform", "gw_eccentricity/load_data.py:time_dimless_to_mks", "gw_eccentricity/load_data.py:amplitude_dimless_to_mks"]}
{"id": "C71", "title": "SXS data directory check", "statement": "A data directory is accepted exactly if it exists and contains every required file for the format; whether horizon data exist is reported.", "quantifier": "every directory content", "why_tests_cant": "Arbitrary sets of files.", "anchors": ["gw_eccentricity/load_data.py:check_sxs_data_dir"]}
{"id": "C72", "title": "EMRI waveform between two times", "statement": "An EMRI waveform loaded between two times holds the samples from the one nearest the start time up to the one nearest the end time, times relative to the peak, times and modes cut alike; without an end time it ends at the maximum of the amplitude.", "quantifier": "every waveform and pair of times", "why_tests_cant": "Index arithmetic on arbitrary arrays.", "anchors": ["gw_eccentricity/load_data.py:load_EMRI_waveform"]}
{"id": "C73", "title": "Origins and their defaults", "statement": "Every documented origin has a set of default options without duplicates and reaches its own loader with the options given, completed by the defaults of that origin; an option that the origin does not have raises, and so does any other origin.", "quantifier": "every origin string and option set", "why_tests_cant": "All strings.", "anchors": ["gw_eccentricity/load_data.py:get_load_waveform_defaults", "gw_eccentricity/load_data.py:load_waveform", "gw_eccentricity/load_data.py:make_a_sub_dict"]}
{"id": "C74", "title": "Resampled NR data never extrapolate", "statement": "Modes read from SXS files are returned on a uniform grid with the requested step that starts at the first file time and contains exactly the grid points before the last file time; every mode is interpolated on that same grid.", "quantifier": "every time array and step", "why_tests_cant": "Continuum.", "anchors": ["gw_eccentricity/load_data.py:load_sxs_catalogformat_new", "gw_eccentricity/load_data.py:load_sxs_catalogformat_old"]}
{"id": "C75", "title": "What the returned numbers are", "statement": "Each returned eccentricity is computed from the values, at one and the same time, of the curve through the frequencies at the pericenters used and of the curve through those at the apocenters used, and the mean anomaly belongs to the same time; that time is the returned reference time or, for frequency input, the time at which the average frequency takes the returned frequency.", "quantifier": "every successful measurement", "why_tests_cant": "Relates every entry of arrays of arbitrary length to the data, for every waveform.", "anchors": ["gw_eccentricity/eccDefinition.py:measure_ecc", "gw_eccentricity/eccDefinition.py:compute_eccentricity", "gw_eccentricity/eccDefinition.py:compute_mean_anomaly", "gw_eccentricity/eccDefinition.py:get_omega_gw_extrema_interpolant"]}
{"id": "C76", "title": "What a success at the strict debug level guarantees", "statement": "A measurement that succeeds at debug level 2 used every extremum found (apart from the first of each kind for a filtered precessing system); pericenters and apocenters alternate, none are too close or too far apart, no returned eccentricity is negative, the eccentricity does not increase at any sample checked, and the times found for frequencies increase. Where the sampled derivative of a curve through the frequencies at the extrema is positive, it does not fall by more than the tolerance from one time checked to the next.", "quantifier": "every waveform and reference input", "why_tests_cant": "Absence of every kind of warning for all inputs.", "anchors": ["gw_eccentricity/eccDefinition.py:measure_ecc", "gw_eccentricity/utils.py:debug_message"]}
{"id": "C77", "title": "When a measurement succeeds", "statement": "A measurement at given times succeeds, using all extrema found, whenever the extrema found are at least two of each kind, alternate and are regularly spaced in phase, the curves through the frequencies there can be evaluated in their common range, and at least two samples and one reference time lie in that range. A measurement at given frequencies succeeds under the same conditions on extrema and curves if, in addition, the average frequency (one value per orbit, and the spline through these at the samples) grows, at least one of the frequencies asked for is in its range, and those that are get times in the common range of the curves; it answers exactly the frequencies in range.", "quantifier": "every waveform and reference times or frequencies meeting the conditions", "why_tests_cant": "Absence of every exception for a continuum of inputs.", "anchors": ["gw_eccentricity/eccDefinition.py:measure_ecc"]}
{"id": "C78", "title": "Newtonian limit of a whole measurement", "statement": "If the phase and frequency given are those of the (2,2) mode of a binary on a Keplerian ellipse of eccentricity e, and every passage through pericenter and apocenter is sampled and found (at least two of each), then a measurement at given times in the range of the extrema succeeds, returns exactly e at every time answered, and returns as mean anomaly 2 pi times the time since the last pericenter passage divided by the period, which solves Kepler's equation.", "quantifier": "every eccentricity in [0,1), orbit size, sampling that contains the apsides, and set of reference times; both interpolation methods", "why_tests_cant": "A continuum of orbits, samplings and reference times; exact equality with the Newtonian definition.", "anchors": ["gw_eccentricity/eccDefinition.py:measure_ecc", "gw_eccentricity/eccDefinition.py:compute_eccentricity", "gw_eccentricity/eccDefinition.py:compute_mean_anomaly"]}
{"id": "C79", "title": "The methods find the apsides of a Newtonian binary", "statement": "On samples of the (2,2) mode of a binary on a Keplerian ellipse, with the apsides among the samples, Amplitude and ResidualAmplitude (eccentricity above 0, up to 6/7) and Frequency and ResidualFrequency (up to 9/10) report as pericenters exactly the passages through pericenter and as apocenters exactly the passages through apocenter, so that the whole measurement returns the eccentricity of the orbit. Above 6/7 the amplitude peaks at apocenter too.", "quantifier": "every such eccentricity, orbit size, sampling containing the apsides, constant quasicircular reference, and peak finder that reports exactly the local maxima of this signal", "why_tests_cant": "A continuum of orbits and samplings; that there is no other extremum between the apsides is a statement about all times.", "anchors": ["gw_eccentricity/eccDefinitionUsingAmplitude.py:find_extrema", "gw_eccentricity/eccDefinitionUsingFrequency.py:get_data_for_finding_extrema", "gw_eccentricity/eccDefinitionUsingResidualAmplitude.py:get_data_for_finding_extrema", "gw_eccentricity/eccDefinition.py:measure_ecc"]}
{"id": "C80", "title": "Misspelt options are never silently ignored", "statement": "A call of measure_eccentricity with a name in extra_kwargs that is not a documented option fails, and so does a call with an undocumented name inside any of the options that are themselves sets of options.", "quantifier": "every call, every options dictionary with an undocumented name at either level", "why_tests_cant": "All waveforms, methods and names; tests try a few names with one method.", "anchors": ["gw_eccentricity/utils.py:check_kwargs_and_set_defaults", "gw_eccentricity/eccDefinition.py:__init__", "gw_eccentricity/eccDefinitionUsingFrequencyFits.py:__init__"]}
{"id": "C81", "title": "Options count by value", "statement": "Leaving an option out, giving its documented default, and giving the options in another order lead to the same outcome of the whole call, whichever it is. In particular no options, an empty dictionary and all documented defaults spelled out are the same.", "quantifier": "every call and every pair of options dictionaries in which the same values are in force, at both levels", "why_tests_cant": "Equality of whole runs for all inputs and all ways of writing the options.", "anchors": ["gw_eccentricity/utils.py:check_kwargs_and_set_defaults", "gw_eccentricity/eccDefinition.py:get_default_extra_kwargs", "gw_eccentricity/eccDefinition.py:__init__"]}
{"id": "C82", "title": "Keys of the waveform dictionary that are not recognised", "statement": "Entries of the waveform dictionary under names that are not documented change nothing in the outcome of a call but warnings: at the debug levels 0 and 1 there is one warning for each of them, at -1 there is none, and at level 2 such a call fails.", "quantifier": "every call and every pair of dictionaries agreeing on the documented names", "why_tests_cant": "All dictionaries and all later uses of them in the call.", "anchors": ["gw_eccentricity/eccDefinition.py:__init__", "gw_eccentricity/eccDefinition.py:get_recognized_dataDict_keys"]}
{"id": "C83", "title": "Complex modes or amplitudes and phases", "statement": "A call with complex modes and a call with their amplitudes and phases have the same outcome, for precessing systems in the inertial frame too when quasicircular modes are given as complex numbers or not at all.", "quantifier": "every waveform, mode content, method and set of options", "why_tests_cant": "All waveforms and all later stages of the call.", "anchors": ["gw_eccentricity/eccDefinition.py:process_data_dict", "gw_eccentricity/eccDefinition.py:get_amp_phase_omega_data", "gw_eccentricity/eccDefinition.py:transform_inertial_to_coprecessing"]}
{"id": "C84", "title": "Caller's options are not modified", "statement": "A call leaves the extra_kwargs dictionary of the caller, and the dictionaries in it, as they were.", "quantifier": "every call, successful or not", "why_tests_cant": "All inputs and all points at which the call can fail; aliasing between caller and callee.", "anchors": ["gw_eccentricity/eccDefinition.py:__init__", "gw_eccentricity/utils.py:check_kwargs_and_set_defaults"]}
{"id": "C85", "title": "Units of a whole call", "statement": "A call with waveform and reference points given in another unit of time, from another origin of time and in another unit of strain returns the same eccentricities and mean anomalies, the same reference points in the new units, or fails in the same way. The origin of time of the quasicircular waveform may be moved on its own.", "quantifier": "every waveform (precessing or not), every change of units and origins, every set of options without dimensionful numbers", "why_tests_cant": "A continuum of units, origins, waveforms and reference points; each comparison and each tolerance along the whole call must be free of units.", "anchors": ["gw_eccentricity/gw_eccentricity.py:measure_eccentricity", "gw_eccentricity/eccDefinition.py:__init__", "gw_eccentricity/eccDefinition.py:measure_ecc", "gw_eccentricity/eccDefinition.py:process_data_dict", "gw_eccentricity/utils.py:get_interpolant"]}
{"id": "C86", "title": "A call comes to an end", "statement": "measure_eccentricity ends, with a result or an exception, whatever waveform, reference points and options it is given.", "quantifier": "every waveform, reference points and options, every behaviour of the numerical libraries", "why_tests_cant": "A test that hangs shows one non-terminating input; that the loops (spin-filter segments, extrema fits) end needs a measure that decreases for every input.", "anchors": ["gw_eccentricity/gw_eccentricity.py:measure_eccentricity", "gw_eccentricity/spin_filter.py:apply_filter", "gw_eccentricity/eccDefinitionUsingFrequencyFits.py:find_extrema"]}
{"id": "C87", "title": "The eccentricity of a Newtonian binary comes out of a whole call", "statement": "Give measure_eccentricity the waveform of a Newtonian binary of eccentricity e (sampled at equal time steps and followed by any merger that the call cuts off), the Amplitude or Frequency method and default options: every eccentricity returned is e, every mean anomaly returned solves Kepler's equation at its time, and the times answered are among those asked for. The call returns whenever the preparation accepts the waveform and one of the times asked for lies between two passages of each kind.", "quantifier": "every eccentricity up to 6/7 (Amplitude) or 9/10 (Frequency), every orbit, sampling that contains the apsides, merger, and list of times", "why_tests_cant": "Tests compare a few waveforms with stored numbers. That the whole chain, from dictionary through cut, peaks, interpolation and formula, gives back the eccentricity of every Newtonian orbit needs Kepler's law and the code of every stage together.", "anchors": ["gw_eccentricity/gw_eccentricity.py:measure_eccentricity", "gw_eccentricity/eccDefinition.py:eccDefinition.measure_ecc", "gw_eccentricity/eccDefinition.py:process_data_dict", "gw_eccentricity/eccDefinitionUsingAmplitude.py:find_extrema"]}
{"id": "C88", "title": "Small errors of the data make small errors of the result", "statement": "If the frequencies that enter at pericenter and apocenter change by a relative error of at most e, the reported eccentricity changes by at most (2/3) e/(1-e); more precisely it changes by at most a third of the change of the logarithm of the ratio of the two frequencies, and no smaller constant holds. If the pericenters move by at most d and no orbit is shorter than T, the reported mean anomaly changes on the circle by at most 2 pi d/T, also when the reference time falls into another orbit. The same holds between two whole measurements at the same times. The same holds for every eccentricity returned by a call of measure_eccentricity for times, against a Newtonian binary. The frequencies of the curves themselves move, with splines, by at most a constant that depends on the times of the extrema and the order only, times the largest change of a frequency at an extremum.", "quantifier": "all positive frequencies, all lists of pericenters, all pairs of measurements that succeed", "why_tests_cant": "A bound on the amplification of errors must hold for every pair of inputs; tests see a few perturbations of a few waveforms.", "anchors": ["gw_eccentricity/eccDefinition.py:et_from_ew22_0pn", "gw_eccentricity/eccDefinition.py:compute_eccentricity", "gw_eccentricity/eccDefinition.py:compute_mean_anomaly"]}
{"id": "C89", "title": "What a call returns, in terms of the dictionary given", "statement": "For a system that does not precess and any method based on a peak finder (Amplitude, Frequency, ResidualAmplitude, ResidualFrequency), whatever the options, a call of measure_eccentricity that returns (and was not told to return zeros) uses as pericenters and apocenters samples of the caller's own arrays, at least two of each and in order of time; for Amplitude and Frequency these are neighbouring peaks and troughs that the peak finder reports in a stretch of the (2,2) amplitude or frequency. tref_out are the times asked for that lie between the first and the last pericenter and between the first and the last apocenter, in the order given. Each eccentricity is computed from the values at its time of a curve through the caller's frequencies at those pericenters and one through those at those apocenters. Each mean anomaly is 2 pi times the elapsed fraction of the time between the pericenters before and after. With frequencies asked for and the default average, fref_out are the frequencies asked for from the smallest value of the orbit average (one point per pair of neighbouring extrema: middle of the time, phase per unit time of the caller's phase) on and below its largest; the time of a frequency is the inverse interpolant's value, and eccentricity and mean anomaly are those at that time.", "quantifier": "every waveform dictionary of a nonprecessing system (amplitudes and phases or complex modes, frequencies given or computed), all options, all reference times or frequencies, all interpolation and peak finding libraries", "why_tests_cant": "A test compares numbers for a few waveforms; it cannot show that for every waveform and set of options the numbers returned are determined in this way by the data given and by nothing else.", "anchors": ["gw_eccentricity/gw_eccentricity.py: measure_eccentricity", "gw_eccentricity/eccDefinition.py: __init__, process_data_dict, get_amp_phase_omega_gw, measure_ecc, get_good_extrema, get_omega_gw_extrema_interpolant, compute_eccentricity, compute_mean_anomaly, compute_tref_in_and_fref_out_from_fref_in", "gw_eccentricity/eccDefinitionUsingAmplitude.py: find_extrema"]}
{"id": "C90", "title": "Calls that share one options dictionary do not influence each other", "statement": "When measure_eccentricity is called any number of times with one and the same extra_kwargs object (as the posterior post-processing does for its samples), each call returns or raises exactly what it would alone with the options as the caller wrote them, although earlier calls may have written into the object; the series ends when each of its calls ends alone; and in another order the same calls give the same answers.", "quantifier": "all series of calls of any length, all data, methods, reference points and options, and all numerical libraries", "why_tests_cant": "The claim is about every history of calls on a shared mutable object.", "anchors": ["gw_eccentricity/postprocess/core.py:postprocess_sample", "gw_eccentricity/postprocess/postprocess_cli.py:run_postprocess_batch", "gw_eccentricity/eccDefinition.py:eccDefinition.__init__", "gw_eccentricity/utils.py:check_kwargs_and_set_defaults"]}
{"id": "C91", "title": "The command line program: from the arguments to the table", "statement": "The program accepts a command line exactly if every option is known and has a value of the announced kind, the posterior and the generator are given, exactly one of --fref and --tref is, the samples can be parsed, the generator names something callable and both JSON options are empty or objects; the last value given counts, otherwise the documented default. Then no sample makes it raise, and for a posterior with distinct labels that has the requested columns and samples it writes output_dir/eccentricity_results.format with one line per requested sample, in the order of the request, with the requested columns, and the eccentricity and mean anomaly measured with the method, options and reference point given, or status fail with the exception; with any number of processes, batch size, schedule and interruptions the table is the same. Lines found in the checkpoint are those of the same command line.", "quantifier": "all command lines (as option/value pairs), posteriors, generators and measurements, numbers of workers, batch sizes, schedules and crash points", "why_tests_cant": "Ranges over all command lines, all behaviours of the generator and the measurement and all schedules.", "anchors": ["gw_eccentricity/postprocess/postprocess_cli.py:build_config_from_cli", "gw_eccentricity/postprocess/postprocess_cli.py:load_callable", "gw_eccentricity/postprocess/postprocess_cli.py:parse_json_dict", "gw_eccentricity/postprocess/postprocess_cli.py:main", "gw_eccentricity/postprocess/postprocess_cli.py:master", "gw_eccentricity/postprocess/core.py:postprocess_sample"]}
{"id": "C92", "title": "Columns of the final table", "statement": "The final table has the columns of the (restricted) posterior followed by sample_index, status, egw, lgw and error_message, whatever the names of the posterior's columns.", "quantifier": "all lists of column names of a posterior", "why_tests_cant": "Every list of column names, including those that clash with the names of the results.", "anchors": ["gw_eccentricity/postprocess/postprocess_cli.py:save_final"]}
{"id": "C93", "title": "A rational fit recovers rational functions", "statement": "If the data are the values of a rational function p/q in lowest terms, of degrees at most the requested (m, n) one of which is attained, at more than m+n distinct points that are not poles, then fitting succeeds and the fit, evaluated anywhere inside or outside the training range, gives the value of p/q; it has poles where p/q has and nowhere else. Each step solves the linearized least squares problem optimally. Evaluating a fit that has not been computed raises ValueError.", "quantifier": "all data sets that are values of a rational function, all degrees, tolerances, norms, numbers of iterations and evaluation points", "why_tests_cant": "Ranges over all rational functions, node sets and evaluation points; a test checks a few, with a tolerance.", "anchors": ["gw_eccentricity/rational_fit.py:_solve_using_varpro", "gw_eccentricity/rational_fit.py:RationalFit.fit", "gw_eccentricity/rational_fit.py:RationalFit.predict", "gw_eccentricity/rational_fit.py:RationalFit.__call__"]}
{"id": "C94", "title": "The low-pass filter keeps slow components of the data, removes fast ones and adds none", "statement": "Filtering real data of any length gives as many real numbers, whose Fourier components are those of the data times the mask; an oscillation with a whole number of periods is multiplied by the mask at its frequency, and the energy never grows. For a whole segment of the waveform: the trend is added back unchanged, components of the rest below the taper are kept exactly, those above it are zero, the cutoff is where the spectrum of the windowed rest is smallest between the frequency of the eccentricity and that of the spins, each of which is where it is largest in its window, and filtering a segment of two or more samples whose trend can be fitted always succeeds.", "quantifier": "all data, masks, frequencies, amplitudes, phases, segments, paddings and options ordered as the default ones", "why_tests_cant": "Ranges over all signals and lengths (even and odd); a test checks a few signals, with a tolerance.", "anchors": ["gw_eccentricity/spin_filter.py:FilterSpinInducedOscillations._filter_segment", "gw_eccentricity/spin_filter.py:_make_lowpass_mask", "gw_eccentricity/spin_filter.py:_get_fcut_fecc_fspin"]}
{"id": "C95", "title": "The trend removed by the spin filter is a fitted power law, and exists for every waveform that is accepted", "statement": "The trend is a power law of the time to a merger at every sample and fits the data, in the sense of least squares, no worse than the leading post-Newtonian order with the mean as its amplitude; data that are such a power law (a quasicircular chirp) pass through the filter unchanged. The trend can be computed for every precessing waveform, whether orbits before the merger are excluded or, as documented for num_orbits_to_exclude_before_merger=None, the whole waveform is used.", "quantifier": "all waveforms, times, merger times and numbers of excluded orbits", "why_tests_cant": "Ranges over all waveforms; the tests exclude two orbits before the merger.", "anchors": ["gw_eccentricity/spin_filter.py:_pn_model", "gw_eccentricity/spin_filter.py:_pn_fit_for_secular_trend", "gw_eccentricity/gw_eccentricity.py:measure_eccentricity", "gw_eccentricity/eccDefinition.py:eccDefinition.process_data_dict"]}
{"id": "C96", "title": "The check for spin-induced oscillations compares mean asymmetry with mean residual, and segments hold exactly the samples around their centre", "statement": "The filter is required exactly when the mean, at its peaks, of half the difference between the (2, 2) mode's amplitude and the (2, -2) mode's (for frequencies: minus the (2, -2) mode's) exceeds the threshold times the mean, at its peaks, of what remains of the (2, 2) data after subtracting the trend; peaks are at least twice the last separation of crossings apart. The crossings are exactly the samples after which the two curves change order; with fewer than two there is a ValueError. Lowering the threshold never turns a required filter off. A segment holds every sample within half a segment length of its centre, with that sample's own data, and no others.", "quantifier": "all data, thresholds, data types, peak finders and segment centres", "why_tests_cant": "Ranges over all waveforms, thresholds and segment centres; the tests only run the filter on a few waveforms.", "anchors": ["gw_eccentricity/spin_filter.py:check_filter_requirement", "gw_eccentricity/spin_filter.py:_find_intersection_points", "gw_eccentricity/spin_filter.py:_make_segment"]}
{"id": "C97", "title": "Waveforms loaded from EMRI, EOB and LVCNR files", "statement": "EMRI: without a time step, the time, mode value and geodesic eccentricity at one position come from one row of the file, the time relative to the peak, and only the rows from the one nearest the requested start up to, not including, the one nearest the requested end are used; with a time step, amplitude, unwrapped phase and eccentricity are interpolated to the multiples of the step from the first time up to the last. When the circular waveform is asked for without a path, it is read from the file in the same directory whose name has e0.000.h5 from the eccentricity on. EOB: both waveforms have times relative to their own merger; a missing path or a path without EccTest raises. LVCNR: samples are deltaTOverM apart, relative to the merger, start at Momega0 or at the file's starting frequency, and the mass ratio, spins, eccentricity and mean anomaly are the file's; the circular waveform can be had for every file. LVCNR_hack: nothing is extrapolated. EOB files with both waveforms (load_h22_from_EOBfile): the modes are those of the file, and what is returned can be measured.", "quantifier": "all files, paths and options", "why_tests_cant": "Ranges over all files, directories and options; the tests load a few files from fixed paths.", "anchors": ["gw_eccentricity/load_data.py:load_EMRI_waveform", "gw_eccentricity/load_data.py:load_EOB_waveform", "gw_eccentricity/load_data.py:load_EOB_EccTest_file", "gw_eccentricity/load_data.py:load_lvcnr_waveform", "gw_eccentricity/load_data.py:load_lvcnr_hack", "gw_eccentricity/load_data.py:load_h22_from_EOBfile"]}
{"id": "C98", "title": "The post-processing classes answer from the last run that returned, treat the injection as a sample and agree with the command line program", "statement": "An object of the post-processing class for Bilby posteriors can be made exactly when the result file can be read, all requested columns exist and the generator is callable; it holds all samples restricted to the requested columns. The summary and the posterior of measured values it reports are those of the last post-processing that returned, whatever was requested before or since (a later post-processing that raises leaves them as they are), and raise ValueError if there was none; every other request is answered independently of what the object was asked before. The injection is measured with the parameters of the first row of its file, a missing minimum frequency being taken from the first posterior sample (KeyError if that, restricted to the requested columns, has none), and the values are those post-processing reports for a sample with the same parameters. Without an injection file every request about the injection raises ValueError. The frequency ranges it reports are, in the order asked (all samples if none are named), those measured for each sample's own parameters, absent exactly when its generator or measurement did not return; an unknown sample is a KeyError. With the posterior, columns, generator, method, options, reference point and samples of an accepted command line the object reports, sample by sample, what the command line program writes in its table.", "quantifier": "all sequences of requests, posteriors, injection files, generators, measurements and command lines", "why_tests_cant": "The results depend on an unbounded history of requests, some of which raise; agreement with the command line program must hold for every posterior, generator and command line.", "anchors": ["gw_eccentricity/postprocess/postprocess.py:PostProcess", "gw_eccentricity/postprocess/postprocess_for_bilby.py:PostProcessForBilby", "gw_eccentricity/postprocess/postprocess_cli.py:main"]}
{"id": "C99", "title": "Downloads of SXS waveforms survive interruption", "statement": "Whatever sequence of earlier calls ended, raised or was killed at any point, a call of download_sxs_waveform that returns gives the directory of that simulation and level, holding the two strain files, the metadata and the horizon data of the requested release with the right contents, which the loader accepts for the same extrapolation order. Files already there are never changed, other files are never touched, nothing is transferred again if all files are there, an unknown simulation raises ValueError, and different simulations and levels have different directories.", "quantifier": "all histories of calls, each ending, raising or killed at any point; all disks, servers, simulations, levels and extrapolation orders", "why_tests_cant": "The claim ranges over every crash point of every call in an unbounded history and over the behaviour of the server; the tests do not download.", "anchors": ["gw_eccentricity/load_data.py:download_sxs_waveform", "gw_eccentricity/load_data.py:check_sxs_data_dir"]}
{"id": "C100", "title": "Waveforms loaded from SXS catalogue directories", "statement": "A loaded waveform has exactly the requested modes. Each is the mode of that ell and m in the strain file of the requested extrapolation order, minus its own memory contribution if the memory is to be removed, interpolated to times that start with the file's, are deltaT apart and stay before its end. Times and all modes are cut at one sample, which is the one nearest to the time the requested number of orbits takes in the horizon data or, without these, the one where the phase of the (2, 2) mode is nearest to that many orbits; times count from the largest amplitude of what is kept. The parameters returned are those in the metadata: in a text file the numbers after the last equality sign of the last line with the name, mass ratio at least 1, read from metadata_path, the same file for everything. The circular waveform, present exactly if asked for, is that of C61 for the mass ratio and spins in the metadata.", "quantifier": "all directories, strain files, memory tables, metadata, horizon data and options, for the new and the old format", "why_tests_cant": "Ranges over the contents of all files and all mode lists; the tests load one or two files with one set of modes.", "anchors": ["gw_eccentricity/load_data.py:load_sxs_catalogformat", "gw_eccentricity/load_data.py:load_sxs_catalogformat_old", "gw_eccentricity/load_data.py:get_modes_dict_from_sxs_catalog_format", "gw_eccentricity/load_data.py:get_modes_dict_from_sxs_catalog_old_format", "gw_eccentricity/load_data.py:get_params_dict_from_sxs_metadata", "gw_eccentricity/load_data.py:get_num_orbits_duration_from_horizon_data"]}
{"id": "C101", "title": "The waveform generators shipped with the examples and tests give the waveform asked for", "statement": "TEOBResumS-DALI: the evolution has the sample's masses, spins, distance, frequency, eccentricity and anomaly; with backwards='yes' the waveform is the backward evolution reversed followed by the forward one, the common point once, with evenly spaced times, each sample as long before or after the common point as its evolution says, and with a phase that does not jump at the common point. ESIGMAHM: arguments are the sample's, the step 1/2048 and the modes (2, 2) only, unless replaced by the caller; times are those of the (2, 2) mode and no mode is lost. SEOBNRv4EHM: the masses simulated have the mass ratio and total mass asked for, and the modes are returned as simulated. With files: whatever calls came before and wherever they were killed, a call returns what is computed for its arguments; dimensionless output is the physical one rescaled by mass and distance.", "quantifier": "all samples, evolutions, extra arguments and histories of calls, each ending, raising or killed at any point", "why_tests_cant": "Ranges over all evolutions and all histories of calls that share a directory; there are no tests of the generators.", "anchors": ["examples/postprocessing/teobresums_dali.py:teob_data_dict_generator", "examples/postprocessing/esigmahm.py:esigma_data_dict_generator", "EccTests/EOBTests/seobnrv4ehm.py:get_modes"]}
{"id": "C102", "title": "The result does not depend on the origin of the azimuth", "statement": "If the source is rotated by an angle about its axis (every mode (l, m) gets the constant phase m times the angle, amplitudes and frequencies stay) and the quasicircular waveform by another angle, measure_eccentricity returns the same reference points, eccentricities and mean anomalies, or raises the same exception; the same samples are used as pericenters and apocenters, the same range of times is allowed and the constructor gives the same warnings. This holds for all methods and options, for data given as complex modes or as amplitudes and phases, for systems that precess or do not, in either frame. The waveform has one sample per time; each complex mode, in the frame in which it is used, vanishes at all samples or none (zero has no phase) and from one sample to the next never turns by exactly half a turn (which can be unwrapped either way); for modes to be transformed both waveforms are given in the same form.", "quantifier": "all waveforms, angles, methods, options and reference points; numpy's routines on modes are modelled, of the transformation to the coprecessing frame it is assumed that rotating the source multiplies its modes by constants of modulus one, and of the cubic interpolation that it commutes with adding a constant", "why_tests_cant": "Relates two executions for every waveform and every angle; the tests compare one waveform with stored numbers.", "anchors": ["gw_eccentricity/gw_eccentricity.py:measure_eccentricity", "gw_eccentricity/eccDefinition.py:process_data_dict", "gw_eccentricity/eccDefinition.py:get_amp_phase_omega_gw", "gw_eccentricity/spin_filter.py:check_and_filter_spin_induced_oscillations", "gw_eccentricity/eccDefinitionUsingFrequencyFits.py:find_extrema"]}
{"id": "C103", "title": "A waveform loaded from LAL is that of the binary asked for", "statement": "A waveform loaded from LAL is what LAL returns for one call: with the mass ratio, eccentricity and model asked for, the total mass asked for (10 solar masses in geometric units), spins with exactly the components along the axis asked for and none in the plane, face on, starting at the orbital frequency asked for and sampled as asked. The times returned are evenly spaced and zero at the peak, and the only mode is (2, 2). Spins with components in the plane above 1e-5, or more than 1 along the axis, or without three components raise.", "quantifier": "every set of options of the LAL loader and every behaviour of the library", "why_tests_cant": "tests compare a few waveforms with themselves; that no option is swapped, rescaled or dropped must hold for every binary", "anchors": ["gw_eccentricity/load_data.py:load_LAL_waveform", "gw_eccentricity/load_data.py:load_LAL_waveform_using_hack", "gw_eccentricity/load_data.py:generate_LAL_waveform"]}
{"id": "C104", "title": "The ringdown does not matter", "statement": "When some orbits before merger are left out (the default), a call of measure_eccentricity returns the same - the whole answer, or the same exception - if samples after the merger are removed or replaced: two waveforms that agree up to a little beyond the merger give the same result. Beyond the merger means: at least two samples before the samples differ, the total amplitude has had its largest value, the merger time has passed, and from then on the phase does not fall below its earlier values.", "quantifier": "all waveforms given as amplitudes and phases or as complex modes, with or without frequencies, nonprecessing or in the coprecessing frame, all lengths, all places to cut, all methods and options", "why_tests_cant": "tests compare a few waveforms with fixed ringdowns; the derivative of the phase, the search for the merger and the sample to cut at all look at the whole arrays, and whether something after the merger leaks into the result depends on every waveform", "anchors": ["gw_eccentricity/eccDefinition.py: process_data_dict", "gw_eccentricity/eccDefinition.py: get_omegalm_from_phaselm", "gw_eccentricity/utils.py: peak_time_via_quadratic_fit", "gw_eccentricity/utils.py: time_deriv_4thOrder"]}
{"id": "C105", "title": "Only the dominant modes and the merger time matter", "statement": "A call of measure_eccentricity depends on the (2, 2) mode, for precessing systems on the (2, 2) and (2, -2) modes, and on the time of the merger only. Two waveforms (nonprecessing, or given in the coprecessing frame) with the same times and the same dominant modes return the same eccentricities, mean anomalies and reference points, the same extrema and warnings, or the same exception, whatever their other modes are and in whatever order they are stored, provided the amplitude of all modes together peaks at the same time. The same holds for the quasicircular waveform of the residual methods.", "quantifier": "all waveforms with at least five samples per mode, given as amplitudes and phases or as complex modes, with or without frequencies; all sets of further modes; all methods and options", "why_tests_cant": "tests use one set of modes per waveform; the derivatives, the cut and the copying of modes loop over all modes, and a leak from another mode would show only for particular mode contents", "anchors": ["gw_eccentricity/eccDefinition.py: get_amp_phase_omega_data", "gw_eccentricity/eccDefinition.py: get_amp_phase_omega_gw", "gw_eccentricity/eccDefinition.py: process_data_dict", "gw_eccentricity/eccDefinition.py: compute_res_amp_gw_and_res_omega_gw", "gw_eccentricity/utils.py: amplitude_using_all_modes"]}
{"id": "C106", "title": "Reference points do not influence each other", "statement": "For one waveform and one set of options (without the option that restricts the measurement to a few orbits around the reference points) there is one eccentricity and one mean anomaly at each time and one time at each frequency: every call of measure_eccentricity that returns, whatever other times or frequencies are asked for with it, returns these values. If a call for some times returns, so does a call for fewer of them as long as one of those was answered, and it answers the same ones; likewise for fewer frequencies, listed in the same order (in any order below the strict debug level). If two calls for times return, the call for the times of both returns and gives what both gave. What is returned for frequencies is what is returned for their times.", "quantifier": "every waveform, method, options (except use_only_these_many_orbits), debug level and every pair of lists of reference points", "why_tests_cant": "Ranges over all pairs of requests on all waveforms; a test compares a few.", "anchors": ["gw_eccentricity/gw_eccentricity.py:measure_eccentricity", "gw_eccentricity/eccDefinition.py:measure_ecc", "gw_eccentricity/eccDefinition.py:compute_tref_in_and_fref_out_from_fref_in"]}
{"id": "C107", "title": "The debug level of a call changes warnings only", "statement": "Calling measure_eccentricity with debug_level -1, 0 or 1 returns the same dictionary and works on the same data, or raises the same exception. At any level, in particular the strict level 2, a call that returns gives exactly what the call at level 0 gives, from the same pericenters and apocenters; a strict level can only refuse. It refuses every precessing system whose modes are given in the inertial frame, whatever the data. It also refuses every call with reference frequencies and use_only_these_many_orbits.", "quantifier": "all waveform dictionaries, methods, options, reference points, debug levels, and all library routines whose rational fit does not depend on whether it prints", "why_tests_cant": "A test compares a few runs at two levels; that no message site anywhere in the call changes a value needs a proof over all paths.", "anchors": ["gw_eccentricity/utils.py:debug_message", "gw_eccentricity/eccDefinition.py:__init__", "gw_eccentricity/eccDefinition.py:process_data_dict", "gw_eccentricity/eccDefinition.py:measure_ecc", "gw_eccentricity/eccDefinition.py:get_rational_fit_for_extrema"]}
{"id": "C108", "title": "Asking for diagnostic plots does not change the measurement", "statement": "Setting debug_plots changes neither whether measure_eccentricity returns, nor what it returns, nor what the object answers later (get_fref_bounds).", "quantifier": "every call: data, method, options, reference points, with the option on, off or left out", "why_tests_cant": "plots are drawn after the measurement from quantities that are computed for the figure only; whether their computation can fail or leave traces has to be settled for all inputs", "anchors": ["gw_eccentricity/eccDefinition.py:measure_ecc", "gw_eccentricity/eccDefinition.py:make_diagnostic_plots", "gw_eccentricity/eccDefinition.py:plot_omega_gw_average", "gw_eccentricity/eccDefinition.py:get_fref_bounds"]}
{"id": "C109", "title": "The diagnostic figure shows what was measured", "statement": "The figure has the panels its documentation promises; the drawn eccentricity and mean anomaly are, at every time, what the measurement returns for that time; dots are at the pericenters and apocenters used and at the reference time; the panels of the waveform show the samples.", "quantifier": "every call with debug_plots that returns, every panel, every drawn point", "why_tests_cant": "a figure is looked at for a few waveforms; that each drawn value is the returned one is a statement about all times and all waveforms", "anchors": ["gw_eccentricity/eccDefinition.py:make_diagnostic_plots", "gw_eccentricity/eccDefinition.py:plot_eccentricity", "gw_eccentricity/eccDefinition.py:plot_mean_anomaly", "gw_eccentricity/eccDefinition.py:plot_omega_gw", "gw_eccentricity/eccDefinition.py:plot_data_used_for_finding_extrema"]}
{"id": "C110", "title": "Nothing is returned where the quasicircular waveform would have to be extrapolated", "statement": "When quasicircular data are given, no value is returned for a time later than the end of the quasicircular waveform once the mergers are aligned.", "quantifier": "every call with quasicircular data, every returned time", "why_tests_cant": "the guard depends on the relative length of two waveforms after alignment and on the number of excluded orbits; tests try a few lengths", "anchors": ["gw_eccentricity/eccDefinition.py:measure_ecc", "gw_eccentricity/eccDefinition.py:compute_res_amp_gw_and_res_omega_gw"]}
{"id": "C111", "title": "Pericenters and apocenters are maxima and minima of the signal", "statement": "With the methods Amplitude, Frequency, ResidualAmplitude and ResidualFrequency, whatever extrema_finding_kwargs the user gives, every pericenter of a call that returns is a local maximum of the method's signal (a single sample or the middle of a flat top, strictly above the samples next to it), every apocenter a local minimum, no two of a kind are neighbouring samples, and the positions do not depend on the unit of the signal as long as no option is itself in that unit. The peaks used by the fits methods and by the filter are such maxima too.", "quantifier": "every signal, every option dictionary, every call", "why_tests_cant": "Signals and options are arbitrary; tests compare a few waveforms.", "anchors": ["gw_eccentricity/eccDefinitionUsingAmplitude.py:find_extrema", "gw_eccentricity/eccDefinitionUsingFrequencyFits.py:find_extrema", "gw_eccentricity/spin_filter.py"]}
{"id": "C112", "title": "Peaks kept apart lose only to larger ones nearby", "statement": "Peaks searched with a minimum distance (by the fits methods and by the filter for precessing systems) are at least that distance apart, and a maximum is left out only if another maximum that is at least as high is closer than the distance (or, with the fits methods, if its prominence is too small).", "quantifier": "every signal, distance and prominence", "why_tests_cant": "Arbitrary arrays; the selection by priority depends on all peaks together.", "anchors": ["gw_eccentricity/eccDefinitionUsingFrequencyFits.py:find_extrema", "gw_eccentricity/spin_filter.py"]}
{"id": "C113", "title": "Exactly the maxima wide enough are pericenters", "statement": "With default options the peak finder reports exactly the local maxima whose width at half prominence is at least the width computed from the waveform; a larger width never adds peaks and a width of zero reports every maximum. Between the first and the last pericenter of a call no such maximum is skipped, and likewise for apocenters.", "quantifier": "every signal and width, every call with default finder options", "why_tests_cant": "Arbitrary arrays; that nothing is skipped is a statement about all samples.", "anchors": ["gw_eccentricity/eccDefinitionUsingAmplitude.py:find_extrema", "gw_eccentricity/eccDefinition.py:get_width_for_peak_finder_from_phase_gw", "gw_eccentricity/eccDefinition.py:get_good_extrema"]}
{"id": "C114", "title": "Pericenters and apocenters found by the peak finder alternate", "statement": "Between any two pericenters found there is an apocenter found, and between any two apocenters a pericenter.", "quantifier": "every signal and every width", "why_tests_cant": "Arbitrary arrays.", "anchors": ["gw_eccentricity/eccDefinitionUsingAmplitude.py:find_extrema", "gw_eccentricity/eccDefinition.py:check_extrema_separation"]}
{"id": "C115", "title": "Interpolation by splines is the smooth curve through the points", "statement": "Interpolating data at increasing nodes by splines gives, at points within the nodes, the values of the one curve that passes through the data, is a polynomial of at most the order used between its breaks and has one continuous derivative less than its order; such a curve always exists. Hence the data are reproduced at the nodes, data on a polynomial of at most that degree are interpolated exactly, the curve is the same in all units, its derivative is what is used as derivative, and a point outside the nodes raises. In a call that interpolates the frequencies at the extrema by splines, the curves through the pericenters and apocenters are these, of the order given in the options, and every eccentricity is that of the two curves at its time. The interpolant depends linearly on the values.", "quantifier": "all increasing nodes, data, orders 1 to 5, evaluation points and units; every call with reference times and spline interpolation", "why_tests_cant": "Arbitrary arrays and orders; uniqueness is a statement about all curves.", "anchors": ["gw_eccentricity/utils.py:interpolate", "gw_eccentricity/utils.py:get_interpolant", "gw_eccentricity/eccDefinition.py:get_interp_extrema"]}
{"id": "C116", "title": "Monotonic interpolation never overshoots", "statement": "Interpolation with the monotonic spline passes through the data and, between neighbouring points, rises if they rise and falls if they fall, staying between their values; so rising data give rising values. The curve has no kinks.", "quantifier": "all increasing nodes, data and evaluation points within the nodes", "why_tests_cant": "Arbitrary arrays; the slopes are chosen by cases depending on three neighbouring points.", "anchors": ["gw_eccentricity/utils.py:get_interpolant", "gw_eccentricity/utils.py:interpolate"]}
{"id": "C117", "title": "A higher reference frequency is a later time", "statement": "The times at which a call with reference frequencies evaluates eccentricity and mean anomaly are a function of the frequency: the curve through the samples of the average frequency. A sampled value of the average frequency gets the time of its sample, and a higher frequency gets a later time. At the strict debug level a call returns only if every frequency gets a later time than the ones given before it.", "quantifier": "every call with reference frequencies, every average frequency", "why_tests_cant": "Depends on the shape of the average frequency for arbitrary data.", "anchors": ["gw_eccentricity/eccDefinition.py:measure_ecc", "gw_eccentricity/eccDefinition.py:get_t_average_for_orbit_averaged_omega_gw"]}
{"id": "C118", "title": "Amplitude and phase of complex modes", "statement": "A complex mode made from amplitudes that do not vanish and phases that change by less than half a turn from sample to sample is split by the package into exactly these amplitudes and, up to one number of whole turns common to all samples, these phases; where the given phase changes by more than half a turn it is never recovered, and at exactly half a turn it can come back with the wrong sign. Conversely every complex mode, with zeros or not, is recovered exactly from its amplitude and phase, and the phase never changes by more than half a turn between samples. Amplitude, phase and total amplitude at a sample do not depend on later samples or on the unit of amplitude (but for the factor). Consequently measure_eccentricity returns the same reference points, eccentricities and mean anomalies, or the same failure, whether it is given the complex modes or the amplitudes and phases they were made from, by whatever whole turns the latter differ from those numpy finds.", "quantifier": "all complex modes, amplitudes and phases of any length; for the call, all waveforms, methods, options and reference points (for precessing systems in the inertial frame without a quasicircular waveform)", "why_tests_cant": "The number of turns np.unwrap adds depends on every earlier sample; tests unwrap a few smooth signals.", "anchors": ["gw_eccentricity/eccDefinition.py:get_amplm_from_dataDict", "gw_eccentricity/eccDefinition.py:get_hlm_from_amplm_phaselm", "gw_eccentricity/utils.py:amplitude_using_all_modes", "gw_eccentricity/gw_eccentricity.py:measure_eccentricity"]}
{"id": "C119", "title": "Asking at a frequency is asking at its time", "statement": "If measure_eccentricity with fref_in returns, each frequency in fref_out has a time: the value at that frequency of the spline that gives time as a function of the average frequency. Calling measure_eccentricity again with the same arguments, but with tref_in set to these times instead of fref_in, also returns, keeps all these times in tref_out, and gives the same eccentricity and mean anomaly. In particular, if the average frequency (over orbits) at a sample of the waveform is exactly the one frequency asked for, asking at the time of this sample gives the same numbers. This holds for every method and every option, unless use_only_these_many_orbits or return_zero_if_small_ecc_failure is given.", "quantifier": "all data, methods, options (except the two named), debug levels, precessing or not, scalar or array reference frequencies, all interpolation libraries", "why_tests_cant": "A test compares the two kinds of call for a few waveforms with a tolerance; equality of the numbers and that the second call returns at all must hold for every waveform, method and option.", "anchors": ["gw_eccentricity/eccDefinition.py:measure_ecc", "gw_eccentricity/eccDefinition.py:compute_tref_in_and_fref_out_from_fref_in", "gw_eccentricity/eccDefinition.py:__init__", "gw_eccentricity/gw_eccentricity.py:measure_eccentricity"]}
{"id": "C120", "title": "Reference frequencies need an average frequency that changes", "statement": "measure_eccentricity with fref_in and the default average, for a system that does not precess and a method based on a peak finder, returns only if two of the orbits between neighbouring pericenters or neighbouring apocenters have different average frequencies. For a waveform all of whose orbits have the same average frequency, as without radiation reaction, no frequency can be asked for.", "quantifier": "all data, all peak-finder methods, all options except the averaging method and return_zero_if_small_ecc_failure, all frequencies asked for, all interpolation libraries that put a constant through points of equal height", "why_tests_cant": "A test shows that one constant-frequency waveform is refused; that none is ever answered must hold for all waveforms and all frequencies.", "anchors": ["gw_eccentricity/eccDefinition.py:get_fref_bounds", "gw_eccentricity/eccDefinition.py:get_fref_out", "gw_eccentricity/eccDefinition.py:compute_orbit_averaged_omega_gw_between_extrema"]}
{"id": "C121", "title": "Spin-weighted harmonics of the waveform generator are the standard ones", "statement": "The function ylm of the SEOBNRv4EHM wrapper returns a number for every degree, order and direction, and zero where no harmonic of spin weight -2 exists (degree below 2 or order beyond the degree); in every direction the squared moduli of all harmonics of one degree add up to (2 ell + 1)/(4 pi); the harmonic of order -m in the direction mirrored at the equator is the complex conjugate times (-1)^ell; turning the direction by an angle about the axis multiplies the harmonic by exp(i m angle); on the axis only m = 2 is left; and the (2, 2) harmonic is sqrt(5/(64 pi)) (1 + cos theta)^2 exp(2 i phi).", "quantifier": "every degree, order and direction", "why_tests_cant": "Identities between infinitely many sums of growing length, at all angles; a test evaluates a few degrees at a few angles.", "anchors": ["EccTests/EOBTests/seobnrv4ehm.py:dlm", "EccTests/EOBTests/seobnrv4ehm.py:ylm"]}
{"id": "C122", "title": "Frequency of a complex mode by splines", "statement": "compute_freqInterp, given a mode A e^{i phi} with nonvanishing amplitude whose phase changes by less than half a turn between samples, at four or more increasing times, returns at every sample the derivative of the cubic spline through the phases; so it is exact for every phase that is a polynomial of time of degree at most three, and independent of amplitude and whole turns. Times that do not increase, fewer than four samples or a mode of another length raise.", "quantifier": "all times, amplitudes and phases of any length", "why_tests_cant": "Exactness for all polynomial phases, samplings and amplitudes cannot be enumerated; no test calls this function.", "anchors": ["EccTests/EOBTests/seobnrv4ehm.py:compute_freqInterp"]}
{"id": "C123", "title": "Eccentricity and mean anomaly do not jump", "statement": "With the interpolation method \"spline\", one function of time lies behind all calls of measure_eccentricity for times on one waveform with one set of options: every eccentricity returned is its value at the time returned. It is the eccentricity of the splines through the given frequencies at the pericenters and at the apocenters. Wherever both splines are positive it is continuous, and has as many continuous derivatives as the order of the splines less one (with the default cubic splines through at least four extrema, two). The definition of eccentricity itself adds no kink: it is infinitely smooth in the two frequencies. Between any two times returned by one call, with any interpolation method, the mean anomaly changes on the circle by at most 2 pi times their distance in units of the shortest orbit; it jumps from 2 pi to 0 at pericenters only.", "quantifier": "every waveform, every method except the two fits, non-precessing, every set of options with splines (except use_only_these_many_orbits and the option to return zero on failure), every list of reference times", "why_tests_cant": "Continuity is about all pairs of arbitrarily close times; a test evaluates finitely many.", "anchors": ["gw_eccentricity/eccDefinition.py:compute_eccentricity", "gw_eccentricity/eccDefinition.py:et_from_ew22_0pn", "gw_eccentricity/eccDefinition.py:get_omega_gw_extrema_interpolant", "gw_eccentricity/utils.py:get_interpolant", "gw_eccentricity/eccDefinition.py:compute_mean_anomaly"]}
