{
 "C01": {
  "note": "The constructor's remaining work is a parameter (any function).",
  "status": "proved"
 },
 "C02": {
  "note": "",
  "status": "proved"
 },
 "C04": {
  "note": "Aliasing of the user's dictionary (it is filled in place) is treated under C21.",
  "status": "proved"
 },
 "C05": {
  "note": "Message text is not modelled.",
  "status": "proved"
 },
 "C06": {
  "note": "An empty array of reference points with the zero fallback returns empty arrays.",
  "status": "proved"
 },
 "C07": {
  "note": "",
  "status": "proved"
 },
 "C08": {
  "note": "scipy's evaluation is a parameter; what is proved is that nothing depends on its values outside the range.",
  "status": "proved"
 },
 "C09": {
  "note": "First measurement on an object; C09_upper_bound_refused is the disagreement with the documentation.",
  "status": "proved"
 },
 "C10": {
  "note": "",
  "status": "proved"
 },
 "C11": {
  "note": "Over the reals.",
  "status": "proved"
 },
 "C12": {
  "note": "Over the reals.",
  "status": "proved"
 },
 "C13": {
  "note": "The (2,2) frequency is derived from Keplerian motion and the quadrupole formula, existence of the orbits included.",
  "status": "proved"
 },
 "C14": {
  "note": "C14_time_units: for every positive scale and origin of time the whole measurement gives the same numbers and the same failures, under stated scale-covariance of the scipy routines (UnitFree, met by linear interpolation for every scale); C14_ratio: the real eccentricity formula meets it; C14_strain_units: which extrema series change with the strain unit. Strain units for a whole call: C85_units_partial.",
  "status": "proved"
 },
 "C15": {
  "note": "Exact arithmetic.",
  "status": "proved"
 },
 "C16": {
  "note": "",
  "status": "proved"
 },
 "C17": {
  "note": "Exact arithmetic; a vanishing quadratic coefficient is an explicit error in the model (inf/nan in numpy).",
  "status": "proved"
 },
 "C18": {
  "note": "Sample by sample.",
  "status": "proved"
 },
 "C21": {
  "note": "The full property is false: two violations are proved (the caller's frequencies are cut in place; the caller's dictionary gains hlm), a third is C40_exception_violation. Proved outside these situations: every object of the caller is unchanged, on return and on exception. In all situations but a fits search raising, only the dictionary itself and the dictionary of frequencies may change.",
  "status": "partial"
 },
 "C22": {
  "note": "The full property is false: three violations are proved. Proved outside the situations of C21: every call in any history of calls on any dataDicts, which may share objects, gives the outcome determined by the initial contents.",
  "status": "partial"
 },
 "C23": {
  "note": "",
  "status": "proved"
 },
 "C24": {
  "note": "End of the data proved. At the start the documented rule is false of the code: C24_start_violation proves the gap is always retained; C24_start_partial is what holds.",
  "status": "partial"
 },
 "C25": {
  "note": "Second half proved. In the first half the documented outcome is false of the code: C25_start_violation; C25_start_partial is what holds.",
  "status": "partial"
 },
 "C26": {
  "note": "",
  "status": "proved"
 },
 "C27": {
  "note": "Coinciding extrema are not reported (C27_coincident).",
  "status": "proved"
 },
 "C28": {
  "status": "proved",
  "note": "Exact arithmetic; argsort is assumed to sort. C28_interpolated and C28_methods give the values of the averages at new times."
 },
 "C29": {
  "note": "",
  "status": "proved"
 },
 "C30": {
  "note": "Histories of measurements and get_fref_bounds in any order, of calls that succeed (C30_history) and with calls that raise in between (C30_any_history).",
  "status": "proved"
 },
 "C31": {
  "note": "One fit with given degrees is a parameter; the degree search around it is modelled, also inside the whole call (Model/ExtremaFit).",
  "status": "proved"
 },
 "C32": {
  "note": "",
  "status": "proved"
 },
 "C33": {
  "note": "Exact arithmetic; C33_threshold shows the one point (a norm of exactly 1e-14) at which fit and evaluation disagree.",
  "status": "proved"
 },
 "C34": {
  "note": "The SVD is a parameter.",
  "status": "proved"
 },
 "C35": {
  "note": "Evaluation of the scipy interpolant is a parameter.",
  "status": "proved"
 },
 "C36": {
  "note": "Proved for references in increasing order (frequencies: estimated times in order). Missing: unordered references, for which it fails (C36_unsorted_violation), and the last sample, which is dropped when there are too few orbits after the references (C36_last_sample_violation). searchsorted is modelled for increasing phases; the least squares fit is a parameter. C36_origin_violation: with reference frequencies the selection raises for every waveform with positive times.",
  "status": "partial"
 },
 "C37": {
  "note": "Interpolation is a parameter; C37_same assumes that it passes through its nodes.",
  "status": "proved"
 },
 "C38": {
  "note": "scipy's find_peaks is a parameter.",
  "status": "proved"
 },
 "C39": {
  "note": "The peak finder is assumed to return positions in increasing order inside the data (for C39_passes: no two adjacent). C39_may_skip: an extremum exactly at the reference sample of a local search is not reported.",
  "status": "proved"
 },
 "C40": {
  "note": "On return the array is restored exactly (exact arithmetic). When the search raises the property is false: C40_exception_violation is a general theorem on what is left behind.",
  "status": "partial"
 },
 "C41": {
  "note": "Over the reals; the fitting routines are parameters. C41_postmerger_violation and C41_origin_violation: bounds and start of the fits presuppose that the waveform ends before time 0.",
  "status": "proved"
 },
 "C42": {
  "note": "For every positive taper width and positive cutoff; cosine over the reals. Width 0 gives nan at the cutoff: C42_zero_width_violation.",
  "status": "proved"
 },
 "C43": {
  "note": "For every spectrum and every positive first estimate of the spin frequency; C43_negative_violation: the interpolated window length can be negative, and the order is then reversed.",
  "status": "proved"
 },
 "C44": {
  "note": "For every window function and placement; C44_applyFilter ties it to the segments the loop makes. Filtering of one segment (FFT) is a parameter. C44_ends: the first and last sample are never covered and repeat the nearest covered value.",
  "status": "proved"
 },
 "C45": {
  "note": "Fit, peak search, interpolation and FFT are parameters. C45_symmetric_violation: modes without asymmetry raise instead of being left alone, even with the filter switched off. C45_no_padding_violation: padding length 0 cannot be used.",
  "status": "proved"
 },
 "C46": {
  "note": "Stronger than asked: no positive bound on the window length is needed, since a segment with fewer than two samples raises.",
  "status": "proved"
 },
 "C48": {
  "note": "Eccentric data always rotated; quasicircular data rotated unless both waveforms are given as amplitudes and phases (C48_zeroecc_violation), and only if the flag is the object True (C48_flag_violation).",
  "status": "partial"
 },
 "C49": {
  "note": "Results, checkpoint file and table. Samples requested twice: C49_duplicates_differ.",
  "status": "proved"
 },
 "C50": {
  "note": "Selections that contain existing samples. C50_failed_master_violation: on an empty or invalid selection the master raises and the workers wait for ever. C50_batch_size_zero_violation: the command line accepts a batch size of zero, and then no schedule ends. Negative sizes are accepted too; their batches are modelled separately (Model/BatchSize) and never cover the samples (C50_negative_batch_violation).",
  "status": "proved"
 },
 "C51": {
  "note": "All crash points except inside the write of the checkpoint file; there the property is false of the code (C51_write_violation).",
  "status": "partial"
 },
 "C52": {
  "note": "Crashes between, not inside, writes of the checkpoint file.",
  "status": "proved"
 },
 "C53": {
  "note": "Proved for runs with the same selection; false when the selection changes (C53_other_selection_violation).",
  "status": "partial"
 },
 "C54": {
  "note": "Proved for distinct samples; a sample requested n times fills n^2 rows (C54_duplicates_violation).",
  "status": "partial"
 },
 "C55": {
  "note": "Distinct posterior labels; C55_duplicate_labels_violation shows what happens otherwise. KeyboardInterrupt etc. not modelled.",
  "status": "proved"
 },
 "C56": {
  "note": "The returned range may be empty (C56_may_be_empty).",
  "status": "proved"
 },
 "C57": {
  "note": "Exact arithmetic.",
  "status": "proved"
 },
 "C58": {
  "note": "ASCII text.",
  "status": "proved"
 },
 "C59": {
  "note": "Exact arithmetic; C59_cases says which of the three outcomes occurs.",
  "status": "proved"
 },
 "C60": {
  "note": "The phase of the modes is a parameter (assumed only to have one value per sample, in C60_end).",
  "status": "proved"
 },
 "C61": {
  "note": "Proved when the generated waveform starts at least ten samples before the NR data; otherwise the slice start is negative and the property is false (C61_short_violation, C61_late_violation). LVCNR files have no mean anomaly: C61_mean_anomaly_violation.",
  "status": "partial"
 },
 "C62": {
  "note": "False of the loader: C62_ignored_violation. Proved: the option must be given, and the function below the loader passes its argument on.",
  "status": "partial"
 },
 "C63": {
  "note": "Window, nonnegativity, symmetry, zero for agreeing methods proved; mean anomalies modulo 2 pi only if the two start on the same side of 2 pi (otherwise C63_wrap_violation).",
  "status": "partial"
 },
 "C64": {
  "note": "The function always raises (C64_never_violation). Proved: the cut it would make.",
  "status": "partial"
 },
 "C66": {
  "note": "Both checks of the extrema, at every level, with the exact times listed.",
  "status": "proved"
 },
 "C67": {
  "note": "Relation between the runs at two levels carried through every stage of measure_ecc; the extrema finder is external and may raise at a strict level. That the rational fits with their degree search meet the premise is extremaFit_level (Lemmas/ExtremaFit).",
  "status": "proved"
 },
 "C68": {
  "note": "Proved for everything measure_ecc stores itself, with fits that return the same again. Rational fits: the degrees found replace the starting degrees, so a second measurement can use other fits (C68_fits_violation); proved when the monotonic degrees form an initial range (C68_fits_partial).",
  "status": "partial"
 },
 "C69": {
  "note": "The waveform generator is a parameter. C69_diverges: no cap on the number of tries.",
  "status": "proved"
 },
 "C70": {
  "note": "Assumes scale invariance of the generator, linearity of the amplitude and the identity between the LAL constants.",
  "status": "proved"
 },
 "C71": {
  "note": "Directory listing as a list of names.",
  "status": "proved"
 },
 "C72": {
  "note": "Proved when both times are given. Without end time the last sample only is dropped (C72_default_violation).",
  "status": "partial"
 },
 "C73": {
  "note": "load_waveform with the table of loaders; the rest of each loader, after its options are checked, is a parameter here (C61, C69-C72, C97, C100, C103).",
  "status": "proved"
 },
 "C74": {
  "note": "Interpolation is a parameter; exact arithmetic (np.arange in floating point may contain one more point).",
  "status": "proved"
 },
 "C75": {
  "status": "proved",
  "note": "The curves are what the oracle for scipy (spline) or for the rational fit returns for the nodes at the extrema; rational fits themselves are C31-C34."
 },
 "C76": {
  "status": "proved",
  "note": "C76_extrema, C76_values: the measurement; the extrema part assumes increasing time and phase and that no sample is both a pericenter and an apocenter (see C27_coincident). C76_call_*: the whole call (run), without these assumptions, so that pericenters and apocenters take turns with \u2264 instead of <. If zeros are returned because extrema are lacking there are no extrema to vouch for; the part on negative eccentricities holds then too. For the degree search see C31_strict."
 },
 "C77": {
  "status": "proved",
  "note": "Default debug level; other quiet levels follow by C67. C77_succeeds for times, C77_frequencies for frequencies with the default average. For systems whose first extrema are not dropped."
 },
 "C78": {
  "status": "proved",
  "note": "Default debug level and time input. The spline and the rational fit are parameters here, assumed (for the degree search see C87) to reproduce constants between their nodes; the finder is assumed to return the apsides. Frequency input is out of reach for a strictly Keplerian orbit, since its average frequency is constant and the code requires it to increase."
 },
 "C79": {
  "status": "proved",
  "note": "Bound 6/7 is sharp (C79_amplitude_violation); 9/10 for the frequency is not. The peak finder is a parameter, assumed to report exactly the maxima; for scipy's this says that its width criterion removes none of them (findsAllPeaks_iff). The two fits methods are not covered."
 },
 "C80": {
  "status": "partial",
  "note": "Undocumented options always fail (C80_option), and so do undocumented members of general_interp_kwargs, extrema_finding_kwargs, special_interp_kwargs_for_omega_gw_extrema, of kwargs_for_fits_methods with the fits methods and of filter_kwargs for precessing systems. C80_value_partial: options that are not a dictionary are not ignored. With other methods kwargs_for_fits_methods is not looked at, nor filter_kwargs for other systems: whatever they contain the outcome is the same (C80_fits_violation, C80_filter_violation, C80_accepted_violation)."
 },
 "C81": {
  "status": "proved",
  "note": "About the composed model of the whole call. The rational fit's option verbose is replaced by the debug level by the code, so its value does not matter at all."
 },
 "C82": {
  "status": "proved",
  "note": "About the composed model of the whole call."
 },
 "C83": {
  "status": "proved",
  "note": "About the composed model. For precessing systems in the inertial frame it is assumed that amplitude and phase recombine to the complex number; quasicircular modes given by amplitudes and phases are the case in which the code is wrong (C48_zeroecc_violation)."
 },
 "C84": {
  "status": "partial",
  "note": "Holds when the system does not precess. For precessing systems the code enters the completed options of the filter in the caller's dictionary (C84_violation); what remains true is that the changed dictionary means the same in every later call (C84_meaning_partial)."
 },
 "C85": {
  "status": "partial",
  "note": "C85_units_partial: whole call (data processing, spin filter, segment, residuals, extrema, measurement), any positive unit factors, under covariance of the scipy/numpy routines and of one rational fit (LibUnitFree) and for calls in UnitFreeCall: one of the four methods based on peaks without prescribed heights, or AmplitudeFits without refinement; a segment not selected by frequency; even time steps; no quasicircular average unless its tolerance is zero. C85_scipy_partial: with the modelled splines, monotonic splines, cubic interpolation and peak finder of scipy nothing has to be assumed about these. Missing cases are false: C85_steps_violation (absolute tolerance of np.allclose), C85_refine_violation (AmplitudeFits refines within 0.05/amplitude taken as a time), C85_tolerance_violation (FrequencyFits stops at an absolute tolerance in frequency)."
 },
 "C86": {
  "status": "partial",
  "note": "C86_ends_partial: every call ends if the first two times differ by at least 1e-7 (the check of equal steps then makes the times monotonic) and the filter's advance (alpha) and segment size are positive, as they are by default. C86_nonprecessing: without precession there is no condition. C86_search: the searches of the fits methods end. The full statement is false: C86_advance_violation, filter_kwargs={'alpha': 0} makes a precessing call loop for ever. Missing: time steps below 1e-7."
 },
 "C87": {
  "status": "proved",
  "note": "The whole call (run), with default options or with splines instead of rational fits through the extrema. C87_returned: what a returning call returns. C87_returns: the call returns, and with no bound on loops. Assumed of the libraries (FaithfulLibs, FaithfulFits): splines and one rational fit with given degrees reproduce constants between their nodes; the search for the degrees is modelled and uses equal time steps, and pi is pi. Assumed of the peak finder: it reports all maxima of this signal; with scipy's this says that they are at least as wide as the width computed from the waveform (C87_scipy). C87_splines: with the modelled splines and peak finder of scipy and spline interpolation, nothing else is assumed about the libraries. The rest of the call (preparation, cut, extrema, checks, formula, mean anomaly) is the model. The examples are orbits of every eccentricity in the range, with a concrete library, scipy's splines and finder, and a burst in another mode as the merger. C87_complex(_returned): the same for complex modes, split by numpy (C118). C87_modelled: for eccentricities up to 1/10, complex modes and the option of splines, with numpy, scipy's splines and scipy's peak finder modelled, nothing is assumed of the libraries any more (the width the call asks for is met because Kepler's equation bounds how fast the signal falls off beside an apsis); its premises are met for every such eccentricity by a waveform sampled finely enough."
 },
 "C88": {
  "status": "proved",
  "note": "Exact real arithmetic. C88_splines bounds how far splines move when the values at their nodes move; that of rational fits is not modelled. The constant is not computed. C88_closed_form: the eccentricity is twice the sine of two thirds of an arctangent."
 },
 "C89": {
  "status": "proved",
  "note": "End-to-end specification of a whole call (run) in terms of the caller's dictionary. Hypotheses: strictly increasing times and arrays of equal lengths; the peak finder, asked with the caller's options completed by the documented defaults, reports positions of samples in increasing order (proved of scipy's: C111_finder); argsort sorts (frequency input). Methods based on fits and precessing systems: see C39-C41, C42-C46 and, for the numbers returned, C75."
 },
 "C90": {
  "status": "proved",
  "note": "C90_history_independent, C90_ends, C90_order, by C84: what earlier calls write into the shared dictionary means the same as what was there. The change of the dictionary is the one modelled in extraAfter; concurrent threads sharing the object are not modelled (joblib's default backend uses processes)."
 },
 "C91": {
  "status": "partial",
  "note": "Acceptance (C91_accepts_iff, C91_columns), no exception for any sample (C91_never_raises, C91_batch) and the table (C91_table_partial, C91_parallel_partial) are proved for runs without a checkpoint or with one left by the same command line. Violated otherwise: the checkpoint does not record the configuration, C91_checkpoint_reused describes what happens in general and C91_other_configuration_violation is an instance. Abbreviated options and --name=value are left to argparse; float, json.loads, import and bilby's reader are parameters."
 },
 "C92": {
  "status": "partial",
  "note": "C92_layout_partial when no column of the posterior has the name of a result column. Violated otherwise: C92_status_violation (no table at all, after all the work), C92_egw_violation."
 },
 "C93": {
  "status": "proved",
  "note": "C93_recovers, C93_optimal, C93_unfitted, in exact arithmetic. The factorizations of numpy and scipy are assumed to do what LinAlg.Sound says (orthonormal and triangular factors, a least unit vector, solutions of triangular systems); exists_sound shows that over the reals such factorizations exist. Assumed: the decomposition converges and the first basis does not break down (norms above 1e-14)."
 },
 "C94": {
  "status": "proved",
  "note": "C94_spectrum, C94_determined, C94_energy, C94_oscillation, C94_segment, C94_defined, C94_window (the values of the window). numpy's rfft, irfft, hamming and hanning are modelled by the formulas of their documentation, over the reals and complex numbers; the fit of the trend is a parameter (see C95)."
 },
 "C95": {
  "status": "partial",
  "note": "C95_trend, C95_chirp and C95_before_partial prove the property when orbits (also zero) before the merger are excluded. C95_merger_violation: with num_orbits_to_exclude_before_merger=None every precessing call whose total amplitude peaks inside the data, or grows until their end, raises, because the power law is not finite at and after the merger time. scipy's least_squares: residuals that are not finite at the start raise ValueError (documented behaviour, modelled); its iteration is a parameter assumed not to increase the sum of squares."
 },
 "C96": {
  "status": "proved",
  "note": "C96_check, C96_crossings, C96_few_crossings, C96_threshold, C96_segment; the trend fit and find_peaks are parameters (the trend fit itself is C95)."
 },
 "C97": {
  "status": "partial",
  "note": "False for EMRI files in a directory whose name contains e0 (C97_emri_path_violation, C97_emri_directory_violation) and for the circular waveform of LVCNR files without a mean anomaly (C97_lvcnr_anomaly_violation); the rest is proved (C97_emri_rows, C97_emri_window, C97_emri_grid, C97_emri_partner_partial, C97_eob, C97_eob_rejected, C97_lvcnr, C97_lvcnr_hack). C97_h22_violation: what load_h22_from_EOBfile returns is refused by every call, because arrays stand where dictionaries of modes are expected; it also gives the circular waveform the times of the eccentric one (C97_h22)."
 },
 "C47": {
  "status": "proved",
  "note": "For every ell_max; the rotation itself is a parameter."
 },
 "C65": {
  "status": "proved",
  "note": "C65_units: for waveforms that are not rotated first (the rotation is a parameter). C65_value: a quarter of the number of samples in the last orbit but one before the merger. C65_default: this is what the finder is given exactly if the user gives no width."
 },
 "C98": {
  "status": "proved",
  "note": "The class default method (Amplitude) differs from that of the program (AmplitudeFits); the agreement is for equal methods. joblib's order of results is assumed, plots and debug are not modelled."
 },
 "C99": {
  "status": "partial",
  "note": "C99_download_partial needs a server whose transfers show a file only once it is complete, and one release; without these the claim is false: C99_fragment_violation (a fragment is taken for the file for ever), C99_release_violation (files of two releases are mixed). The other parts hold for every server."
 },
 "C100": {
  "status": "partial",
  "note": "All parts are proved except that metadata_path is honoured and that one metadata file is used for everything, which are false (C100_metadata_path_violation, C100_two_metadata_violation); orbits that go clockwise in the horizon data are not removed (C100_clockwise_violation). Reading files, interpolation and the memory computation are parameters; C100_memory assumes complete tables, the memory's starting at ell at most 2 and ending with the strain's."
 },
 "C101": {
  "status": "partial",
  "note": "False parts: the phase can jump by a multiple of 2 pi at the common point if the backward phase comes wrapped (C101_jump_violation; C101_phase says when it does not); the file name holds only int(1/delta_t), so a call can return the modes of another step (C101_step_violation; C101_files_partial is what holds); a killed save makes later calls raise for ever (C101_unfinished_violation). Waveform models are parameters; that file names of different arguments differ is assumed; dlm and ylm are the subject of C121; compute_freqInterp is the subject of C122; the approx argument of SEOBNRv4EHM only changes the name of the file."
 },
 "C102": {
  "status": "proved",
  "note": "The whole call (run) on both waveforms, related stage by stage. Assumptions on the libraries are collected in LibTurnFree (Spec/PhaseOrigin); C118_turn shows that numpy's routines meet them for modes without zeros and jumps by exactly half a turn, C102_numpy restates the result for them, and C102_half_turn_needed shows that the exception is needed. The examples give complex precessing data, complex and real data without precession and the fits method with refinement."
 },
 "C103": {
  "status": "proved",
  "note": "The library call is an oracle. The initial mean anomaly is not passed on (C62)."
 },
 "C104": {
  "status": "proved",
  "note": "C104_cut removes the samples from the n-th on, C104_same compares two waveforms. Assumptions on numpy: amplitude, unwrapped phase and total amplitude at a sample do not depend on later samples. Precessing systems given in the inertial frame are not covered (the frame comes from a library that looks at the whole waveform)."
 },
 "C105": {
  "status": "proved",
  "note": "C105_modes: equal returned dictionaries (or the same exception); C105_stored: equal stored measurements and warnings. Spec/OtherModes says what 'the same dominant modes' and 'the time of the merger' are; the total amplitude is a parameter. Waveforms in the inertial frame of precessing systems are excluded: the rotation mixes modes."
 },
 "C106": {
  "status": "proved",
  "note": "Whole calls (run), all six methods, precessing or not, filtered or not, with or without the fallback to zeros. Numerical libraries are parameters that answer equal questions equally."
 },
 "C107": {
  "status": "proved",
  "note": "Whole call (run), including the degree search of the rational fits. The spin filter has its own debug level among its options, which is kept. C107_strict_inertial: at level 2 the announcement of the change of frame is an exception."
 },
 "C108": {
  "status": "partial",
  "note": "Proved: with debug_plots false or absent nothing changes; if the call with the figure returns, the call without returns the same; exact condition for the call with the figure to return (always for frequencies; for times iff the configured average frequency can be computed); get_fref_bounds() and get_fref_bounds(configured method) agree afterwards. False in full: C108_violation (calls for times that return without the figure raise with it) and C108_bounds_violation (bounds of another averaging method). Needs as many amplitudes and frequencies as times, and a level of at least -1."
 },
 "C109": {
  "status": "partial",
  "note": "Proved: exactly the seven panels promised for every call; drawn curves of eccentricity and mean anomaly are the values that calls for those times return; dots and sample curves. False in full: the panels of the residuals are never drawn (C109_residual_violation), because the processed dictionary never has the key hlm_zeroecc. C109_curves is for the whole waveform (use_only_these_many_orbits not set)."
 },
 "C110": {
  "status": "partial",
  "note": "Proved: an accepted quasicircular waveform reaches the merger of the eccentric one, so times up to the merger are covered; with a number of orbits to exclude and increasing times and phases, every time with a value is covered. False in full: without excluded orbits a time after the end is answered (C110_violation); the guard for it tests for a key the processed dictionary never has."
 },
 "C111": {
  "status": "proved",
  "note": "C111_maxima, C111_finder, C111_fits, C111_units, C111_units_fits, C111_apsides, C111_call. scipy's find_peaks is modelled from its published algorithm (Model/FindPeaks; its source is not in /repo). These theorems also discharge, for scipy, what other theorems assume of the peak finder (C89, C39, unit independence)."
 },
 "C112": {
  "status": "proved",
  "note": "C112_filter, C112_fits. numpy's argsort is a parameter assumed to sort (IsArgsort)."
 },
 "C113": {
  "status": "proved",
  "note": "C113_conditions, C113_default, C113_no_width, C113_wider, C113_none_skipped; C113_rejected (options scipy rejects make every call fail, whatever the data). Width as scipy documents it: at half the prominence, ends interpolated linearly (Spec/FindPeaks: HasWidth)."
 },
 "C114": {
  "status": "partial",
  "note": "Proved if the width is zero, when all maxima and minima are reported (C114_alternate_partial). False in general: a width demanded of both kinds removes some of one kind and not of the other (C114_need_not_alternate)."
 },
 "C115": {
  "status": "proved",
  "note": "C115_exists, C115_values, C115_nodes, C115_polynomial, C115_outside, C115_units, C115_derivative, C115_call. scipy's InterpolatedUnivariateSpline is modelled in exact arithmetic from its documentation (Model/Spline): the interpolating spline with FITPACK's choice of knots. That the curve exists and is unique (Schoenberg-Whitney for these knots) is proved, not assumed."
 },
 "C116": {
  "status": "proved",
  "note": "scipy's PchipInterpolator (Fritsch-Butland slopes) is modelled in exact arithmetic."
 },
 "C117": {
  "status": "partial",
  "note": "C117_call_partial: the time is the spline through the samples, for any order; a higher frequency gives a later time for order 1. For the default order 3 the statement is false: C117_violated. (The code prints a message when times are not increasing, at debug level 1 and more; the default is silent.) At debug level 2 the times increase in the order asked (last clause of C117_call_partial)."
 },
 "C118": {
  "status": "proved",
  "note": "Model/Numpy writes np.abs, np.angle with np.unwrap, amp*exp(-i phase) and the total amplitude over the real and complex numbers; only the rotation of scri stays a parameter. These routines are shown to meet what C48, C83, C85, C102 and C104 assume of them (C118_recombine, C118_units, C118_turn, C118_sample_by_sample)."
 },
 "C119": {
  "status": "proved",
  "note": "C119_call proves that the second call returns, with the same numbers; C119_sampled adds the clause on samples for libraries that pass through their points (scipy_throughPoints: scipy's spline as modelled does)."
 },
 "C120": {
  "status": "proved",
  "note": "Proved for libraries that put a constant through points of equal height; scipy_keepsConstants shows that scipy's spline as modelled does."
 },
 "C121": {
  "status": "proved",
  "note": "Exact real arithmetic; float(...) of huge factorials overflows for degrees above about 50, which is not modelled. np.math, which the code uses, no longer exists in numpy 2."
 },
 "C122": {
  "status": "proved",
  "note": "Exact arithmetic; np.angle, np.unwrap and scipy's spline are the modelled ones (C115, C118)."
 },
 "C123": {
  "status": "proved",
  "note": "C123_formula: the eccentricity is smooth of every order in two positive frequencies (through the arccosine form of the arctangent). C123_call: whole calls with scipy's splines as modelled in Model/Spline; the two splines are those of C115. Positivity of the splines is needed: between their nodes splines may leave the range of the frequencies (C117), and the square root of a negative number is NaN. C123_anomaly, C123_anomaly_call: the mean anomaly, from the stability under moved pericenters (C88)."
 }
}