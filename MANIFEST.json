{
 "claims": [
  {
   "property": "C01",
   "status": "proved",
   "theorems": [
    "GwEcc.C01_exactly_one",
    "GwEcc.C01_raises"
   ],
   "note": "The constructor's remaining work is a parameter (any function)."
  },
  {
   "property": "C02",
   "status": "proved",
   "theorems": [
    "GwEcc.C02_dispatch",
    "GwEcc.C02_unknown_method",
    "GwEcc.C02_known_method",
    "GwEcc.C02_unknown_frame"
   ],
   "note": ""
  },
  {
   "property": "C03",
   "status": "proved",
   "theorems": [
    "GwEcc.C03_rejected",
    "GwEcc.C03_accepted",
    "GwEcc.C03_unrecognised",
    "GwEcc.C03_contents"
   ],
   "note": ""
  },
  {
   "property": "C04",
   "status": "proved",
   "theorems": [
    "GwEcc.C04_rejects",
    "GwEcc.C04_values",
    "GwEcc.C04_idempotent",
    "GwEcc.C04_required",
    "GwEcc.C04_required_error"
   ],
   "note": "Aliasing of the user's dictionary (it is filled in place) is treated under C21."
  },
  {
   "property": "C05",
   "status": "proved",
   "theorems": [
    "GwEcc.C05_debug_level"
   ],
   "note": "Message text is not modelled."
  },
  {
   "property": "C06",
   "status": "proved",
   "theorems": [
    "GwEcc.C06_shape"
   ],
   "note": "An empty array of reference points with the zero fallback returns empty arrays."
  },
  {
   "property": "C07",
   "status": "proved",
   "theorems": [
    "GwEcc.C07_times_answered",
    "GwEcc.C07_extrema_used",
    "GwEcc.C07_none_raises"
   ],
   "note": ""
  },
  {
   "property": "C08",
   "status": "proved",
   "theorems": [
    "GwEcc.C08_eccentricity_outside_raises",
    "GwEcc.C08_mean_anomaly_outside_raises",
    "GwEcc.C08_derivative_outside_raises",
    "GwEcc.C08_no_extrapolation",
    "GwEcc.C08_nodes"
   ],
   "note": "scipy's evaluation is a parameter; what is proved is that nothing depends on its values outside the range."
  },
  {
   "property": "C09",
   "status": "proved",
   "theorems": [
    "GwEcc.C09_frequencies_answered",
    "GwEcc.C09_none_raises",
    "GwEcc.C09_upper_bound_refused"
   ],
   "note": "First measurement on an object; C09_upper_bound_refused is the disagreement with the documentation."
  },
  {
   "property": "C10",
   "status": "proved",
   "theorems": [
    "GwEcc.C10_zero_only_if",
    "GwEcc.C10_measured",
    "GwEcc.C10_too_few"
   ],
   "note": ""
  },
  {
   "property": "C11",
   "status": "proved",
   "theorems": [
    "GwEcc.C11_eccentricity_range",
    "GwEcc.C11_eccentricity_boundary",
    "GwEcc.C11_reported"
   ],
   "note": "Over the reals."
  },
  {
   "property": "C12",
   "status": "proved",
   "theorems": [
    "GwEcc.C12_eccentricity_sign",
    "GwEcc.C12_eccentricity_monotone"
   ],
   "note": "Over the reals."
  },
  {
   "property": "C13",
   "status": "proved",
   "theorems": [
    "GwEcc.C13_newtonian_limit",
    "GwEcc.C13_nonvacuous"
   ],
   "note": "The (2,2) frequency is derived from Keplerian motion and the quadrupole formula, existence of the orbits included."
  },
  {
   "property": "C14",
   "status": "proved",
   "theorems": [
    "GwEcc.C14_strain_units",
    "GwEcc.C14_time_units",
    "GwEcc.C14_ratio"
   ],
   "note": "C14_time_units: for every positive scale and origin of time the whole measurement gives the same numbers and the same failures, under stated scale-covariance of the scipy routines (UnitFree, met by linear interpolation for every scale); C14_ratio: the real eccentricity formula meets it; C14_strain_units: which extrema series change with the strain unit. Strain units for a whole call: C85_units_partial."
  },
  {
   "property": "C15",
   "status": "proved",
   "theorems": [
    "GwEcc.C15_mean_anomaly",
    "GwEcc.C15_determined",
    "GwEcc.C15_zero_at_pericenters",
    "GwEcc.C15_local"
   ],
   "note": "Exact arithmetic."
  },
  {
   "property": "C16",
   "status": "proved",
   "theorems": [
    "GwEcc.C16_length",
    "GwEcc.C16_exact",
    "GwEcc.C16_linear",
    "GwEcc.C16_offset"
   ],
   "note": ""
  },
  {
   "property": "C17",
   "status": "proved",
   "theorems": [
    "GwEcc.C17_exact",
    "GwEcc.C17_amplitude_scale",
    "GwEcc.C17_time_affine"
   ],
   "note": "Exact arithmetic; a vanishing quadratic coefficient is an explicit error in the model (inf/nan in numpy)."
  },
  {
   "property": "C18",
   "status": "proved",
   "theorems": [
    "GwEcc.C18_order",
    "GwEcc.C18_order_amplm",
    "GwEcc.C18_phases",
    "GwEcc.C18_dominates",
    "GwEcc.C18_zero",
    "GwEcc.C18_scale"
   ],
   "note": "Sample by sample."
  },
  {
   "property": "C19",
   "status": "proved",
   "theorems": [
    "GwEcc.C19_quantities",
    "GwEcc.C19_same_run",
    "GwEcc.C19_results",
    "GwEcc.C19_missing"
   ],
   "note": ""
  },
  {
   "property": "C20",
   "status": "proved",
   "theorems": [
    "GwEcc.C20_none",
    "GwEcc.C20_negative",
    "GwEcc.C20_cut",
    "GwEcc.C20_cut_applies",
    "GwEcc.C20_monotone"
   ],
   "note": ""
  },
  {
   "property": "C21",
   "status": "partial",
   "theorems": [
    "GwEcc.HeapProps.C21_unchanged_partial",
    "GwEcc.HeapProps.C21_arrays_partial",
    "GwEcc.HeapProps.C21_omegalm_violation",
    "GwEcc.HeapProps.C21_hlm_violation"
   ],
   "note": "The full property is false: two violations are proved (the caller's frequencies are cut in place; the caller's dictionary gains hlm), a third is C40_exception_violation. Proved outside these situations: every object of the caller is unchanged, on return and on exception. In all situations but a fits search raising, only the dictionary itself and the dictionary of frequencies may change."
  },
  {
   "property": "C22",
   "status": "partial",
   "theorems": [
    "GwEcc.HeapProps.C22_history_partial",
    "GwEcc.HeapProps.C22_twice_partial",
    "GwEcc.HeapProps.C22_hlm_violation",
    "GwEcc.HeapProps.C22_omegalm_violation",
    "GwEcc.HeapProps.C22_fits_violation"
   ],
   "note": "The full property is false: three violations are proved. Proved outside the situations of C21: every call in any history of calls on any dataDicts, which may share objects, gives the outcome determined by the initial contents."
  },
  {
   "property": "C23",
   "status": "proved",
   "theorems": [
    "GwEcc.C23_contiguous",
    "GwEcc.C23_total",
    "GwEcc.C23_unchanged"
   ],
   "note": ""
  },
  {
   "property": "C24",
   "status": "partial",
   "theorems": [
    "GwEcc.C24_end",
    "GwEcc.C24_end_untouched",
    "GwEcc.C24_start_violation",
    "GwEcc.C24_start_partial",
    "GwEcc.C24_used"
   ],
   "note": "End of the data proved. At the start the documented rule is false of the code: C24_start_violation proves the gap is always retained; C24_start_partial is what holds."
  },
  {
   "property": "C25",
   "status": "partial",
   "theorems": [
    "GwEcc.C25_end",
    "GwEcc.C25_start_violation",
    "GwEcc.C25_start_partial",
    "GwEcc.C25_otherwise",
    "GwEcc.C25_used"
   ],
   "note": "Second half proved. In the first half the documented outcome is false of the code: C25_start_violation; C25_start_partial is what holds."
  },
  {
   "property": "C26",
   "status": "proved",
   "theorems": [
    "GwEcc.C26_midpoints"
   ],
   "note": ""
  },
  {
   "property": "C27",
   "status": "proved",
   "theorems": [
    "GwEcc.C27_alternation",
    "GwEcc.C27_quiet",
    "GwEcc.C27_coincident"
   ],
   "note": "Coinciding extrema are not reported (C27_coincident)."
  },
  {
   "property": "C28",
   "status": "proved",
   "theorems": [
    "GwEcc.C28_formula",
    "GwEcc.C28_between",
    "GwEcc.C28_attached",
    "GwEcc.C28_value",
    "GwEcc.C28_not_increasing_raises",
    "GwEcc.C28_interpolated",
    "GwEcc.C28_methods"
   ],
   "note": "Exact arithmetic; argsort is assumed to sort. C28_interpolated and C28_methods give the values of the averages at new times."
  },
  {
   "property": "C29",
   "status": "proved",
   "theorems": [
    "GwEcc.C29_increasing",
    "GwEcc.C29_not_increasing_raises",
    "GwEcc.C29_samples"
   ],
   "note": ""
  },
  {
   "property": "C30",
   "status": "proved",
   "theorems": [
    "GwEcc.C30_bounds",
    "GwEcc.C30_history",
    "GwEcc.C30_any_history"
   ],
   "note": "Histories of measurements and get_fref_bounds in any order, of calls that succeed (C30_history) and with calls that raise in between (C30_any_history)."
  },
  {
   "property": "C31",
   "status": "proved",
   "theorems": [
    "GwEcc.C31_terminates",
    "GwEcc.C31_returned",
    "GwEcc.C31_raised",
    "GwEcc.C31_strict",
    "GwEcc.C31_lowered",
    "GwEcc.C31_start",
    "GwEcc.C31_history",
    "GwEcc.C31_check",
    "GwEcc.C31_gradient"
   ],
   "note": "One fit with given degrees is a parameter; the degree search around it is modelled, also inside the whole call (Model/ExtremaFit)."
  },
  {
   "property": "C32",
   "status": "proved",
   "theorems": [
    "GwEcc.C32_terminates",
    "GwEcc.C32_reduced",
    "GwEcc.C32_raises",
    "GwEcc.C32_balanced"
   ],
   "note": ""
  },
  {
   "property": "C33",
   "status": "proved",
   "theorems": [
    "GwEcc.C33_basis",
    "GwEcc.C33_threshold",
    "GwEcc.C33_training",
    "GwEcc.C33_units",
    "GwEcc.C33_interval"
   ],
   "note": "Exact arithmetic; C33_threshold shows the one point (a norm of exactly 1e-14) at which fit and evaluation disagree."
  },
  {
   "property": "C34",
   "status": "proved",
   "theorems": [
    "GwEcc.C34_best",
    "GwEcc.C34_first_failure"
   ],
   "note": "The SVD is a parameter."
  },
  {
   "property": "C35",
   "status": "proved",
   "theorems": [
    "GwEcc.C35_accepts",
    "GwEcc.C35_spline_call",
    "GwEcc.C35_interpolate",
    "GwEcc.C35_interpolate_raises"
   ],
   "note": "Evaluation of the scipy interpolant is a parameter."
  },
  {
   "property": "C36",
   "status": "partial",
   "theorems": [
    "GwEcc.Envelope.C36_origin_violation",
    "GwEcc.C36_contiguous",
    "GwEcc.C36_whole",
    "GwEcc.C36_times_partial",
    "GwEcc.C36_estimate",
    "GwEcc.C36_frequencies_partial",
    "GwEcc.C36_unsorted_violation",
    "GwEcc.C36_last_sample_violation"
   ],
   "note": "Proved for references in increasing order (frequencies: estimated times in order). Missing: unordered references, for which it fails (C36_unsorted_violation), and the last sample, which is dropped when there are too few orbits after the references (C36_last_sample_violation). searchsorted is modelled for increasing phases; the least squares fit is a parameter. C36_origin_violation: with reference frequencies the selection raises for every waveform with positive times."
  },
  {
   "property": "C37",
   "status": "proved",
   "theorems": [
    "GwEcc.C37_origin",
    "GwEcc.C37_rejected",
    "GwEcc.C37_value",
    "GwEcc.C37_same"
   ],
   "note": "Interpolation is a parameter; C37_same assumes that it passes through its nodes."
  },
  {
   "property": "C38",
   "status": "proved",
   "theorems": [
    "GwEcc.C38_sign",
    "GwEcc.C38_unknown_raises",
    "GwEcc.C38_extrema",
    "GwEcc.C38_series",
    "GwEcc.C38_residual_needs_data",
    "GwEcc.C38_residual_raises"
   ],
   "note": "scipy's find_peaks is a parameter."
  },
  {
   "property": "C39",
   "status": "proved",
   "theorems": [
    "GwEcc.Fits.C39_terminates",
    "GwEcc.Fits.C39_increasing",
    "GwEcc.Fits.C39_extrema",
    "GwEcc.Fits.C39_info",
    "GwEcc.Fits.C39_passes",
    "GwEcc.FitsDemo.C39_may_skip"
   ],
   "note": "The peak finder is assumed to return positions in increasing order inside the data (for C39_passes: no two adjacent). C39_may_skip: an extremum exactly at the reference sample of a local search is not reported."
  },
  {
   "property": "C40",
   "status": "partial",
   "theorems": [
    "GwEcc.HeapProps.C40_restored_partial",
    "GwEcc.HeapProps.C40_exception_violation"
   ],
   "note": "On return the array is restored exactly (exact arithmetic). When the search raises the property is false: C40_exception_violation is a general theorem on what is left behind."
  },
  {
   "property": "C41",
   "status": "proved",
   "theorems": [
    "GwEcc.Envelope.C41_value",
    "GwEcc.Envelope.C41_slope",
    "GwEcc.Envelope.C41_positive",
    "GwEcc.Envelope.C41_increasing",
    "GwEcc.Envelope.C41_nondecreasing",
    "GwEcc.Envelope.C41_singular",
    "GwEcc.Envelope.C41_guard",
    "GwEcc.Envelope.C41_within_bounds",
    "GwEcc.Envelope.C41_start",
    "GwEcc.Envelope.C41_postmerger_violation",
    "GwEcc.Envelope.C41_secular",
    "GwEcc.Envelope.C41_secular_accepts",
    "GwEcc.Envelope.C41_origin_violation"
   ],
   "note": "Over the reals; the fitting routines are parameters. C41_postmerger_violation and C41_origin_violation: bounds and start of the fits presuppose that the waveform ends before time 0."
  },
  {
   "property": "C42",
   "status": "proved",
   "theorems": [
    "GwEcc.Filter.C42_mask",
    "GwEcc.Filter.C42_antitone",
    "GwEcc.Filter.C42_no_gain",
    "GwEcc.Filter.C42_zero_width_violation"
   ],
   "note": "For every positive taper width and positive cutoff; cosine over the reals. Width 0 gives nan at the cutoff: C42_zero_width_violation."
  },
  {
   "property": "C43",
   "status": "proved",
   "theorems": [
    "GwEcc.Filter.C43_order",
    "GwEcc.Filter.C43_peaks",
    "GwEcc.Filter.C43_negative_violation"
   ],
   "note": "For every spectrum and every positive first estimate of the spin frequency; C43_negative_violation: the interpolated window length can be negative, and the order is then reversed."
  },
  {
   "property": "C44",
   "status": "proved",
   "theorems": [
    "GwEcc.Filter.C44_mean",
    "GwEcc.Filter.C44_local_range",
    "GwEcc.Filter.C44_range",
    "GwEcc.Filter.C44_unchanged",
    "GwEcc.Filter.C44_first",
    "GwEcc.Filter.C44_last",
    "GwEcc.Filter.C44_applyFilter",
    "GwEcc.Filter.C44_ends",
    "GwEcc.Filter.C44_hann"
   ],
   "note": "For every window function and placement; C44_applyFilter ties it to the segments the loop makes. Filtering of one segment (FFT) is a parameter. C44_ends: the first and last sample are never covered and repeat the nearest covered value."
  },
  {
   "property": "C45",
   "status": "proved",
   "theorems": [
    "GwEcc.Filter.C45_originals",
    "GwEcc.Filter.C45_decision",
    "GwEcc.Filter.C45_filtered",
    "GwEcc.Filter.C45_switched_off",
    "GwEcc.Filter.C45_independent",
    "GwEcc.Filter.C45_phase_integral",
    "GwEcc.Filter.C45_symmetric_violation",
    "GwEcc.Filter.C45_no_padding_violation"
   ],
   "note": "Fit, peak search, interpolation and FFT are parameters. C45_symmetric_violation: modes without asymmetry raise instead of being left alone, even with the filter switched off. C45_no_padding_violation: padding length 0 cannot be used."
  },
  {
   "property": "C46",
   "status": "proved",
   "theorems": [
    "GwEcc.Filter.C46_terminates",
    "GwEcc.Filter.C46_centres"
   ],
   "note": "Stronger than asked: no positive bound on the window length is needed, since a segment with fewer than two samples raises."
  },
  {
   "property": "C47",
   "status": "proved",
   "theorems": [
    "GwEcc.C47_columns",
    "GwEcc.C47_missing_raises",
    "GwEcc.C47_missing_error",
    "GwEcc.C47_roundtrip"
   ],
   "note": "For every ell_max; the rotation itself is a parameter."
  },
  {
   "property": "C48",
   "status": "partial",
   "theorems": [
    "GwEcc.C48_eccentric",
    "GwEcc.C48_zeroecc_partial",
    "GwEcc.C48_zeroecc_violation",
    "GwEcc.C48_flag_violation"
   ],
   "note": "Eccentric data always rotated; quasicircular data rotated unless both waveforms are given as amplitudes and phases (C48_zeroecc_violation), and only if the flag is the object True (C48_flag_violation)."
  },
  {
   "property": "C49",
   "status": "proved",
   "theorems": [
    "GwEcc.Mpi.C49_parallel_eq_serial",
    "GwEcc.Mpi.C49_duplicates_differ"
   ],
   "note": "Results, checkpoint file and table. Samples requested twice: C49_duplicates_differ."
  },
  {
   "property": "C50",
   "status": "proved",
   "theorems": [
    "GwEcc.Mpi.C50_batches",
    "GwEcc.Mpi.C50_negative_batch_violation",
    "GwEcc.Mpi.C50_exactly_once",
    "GwEcc.Mpi.C50_at_most_once",
    "GwEcc.Mpi.C50_clean_shutdown",
    "GwEcc.Mpi.C50_terminates",
    "GwEcc.Mpi.C50_batch_size_zero_violation",
    "GwEcc.Mpi.C50_no_buffering",
    "GwEcc.Mpi.C50_failed_master_violation"
   ],
   "note": "Selections that contain existing samples. C50_failed_master_violation: on an empty or invalid selection the master raises and the workers wait for ever. C50_batch_size_zero_violation: the command line accepts a batch size of zero, and then no schedule ends. Negative sizes are accepted too; their batches are modelled separately (Model/BatchSize) and never cover the samples (C50_negative_batch_violation)."
  },
  {
   "property": "C51",
   "status": "partial",
   "theorems": [
    "GwEcc.Mpi.C51_resume_partial",
    "GwEcc.Mpi.C51_not_recomputed",
    "GwEcc.Mpi.C51_write_violation"
   ],
   "note": "All crash points except inside the write of the checkpoint file; there the property is false of the code (C51_write_violation)."
  },
  {
   "property": "C52",
   "status": "proved",
   "theorems": [
    "GwEcc.Mpi.C52_bounded_loss",
    "GwEcc.Mpi.C52_in_flight",
    "GwEcc.Mpi.C52_bounded_loss_serial"
   ],
   "note": "Crashes between, not inside, writes of the checkpoint file."
  },
  {
   "property": "C53",
   "status": "partial",
   "theorems": [
    "GwEcc.Mpi.C53_same_selection_partial",
    "GwEcc.Mpi.C53_other_selection_violation"
   ],
   "note": "Proved for runs with the same selection; false when the selection changes (C53_other_selection_violation)."
  },
  {
   "property": "C54",
   "status": "partial",
   "theorems": [
    "GwEcc.Mpi.C54_selection",
    "GwEcc.Mpi.C54_table_partial",
    "GwEcc.Mpi.C54_empty",
    "GwEcc.Mpi.C54_duplicates_violation"
   ],
   "note": "Proved for distinct samples; a sample requested n times fills n^2 rows (C54_duplicates_violation)."
  },
  {
   "property": "C55",
   "status": "proved",
   "theorems": [
    "GwEcc.Post.C55_never_raises",
    "GwEcc.Post.C55_row",
    "GwEcc.Post.C55_isolation",
    "GwEcc.Post.C55_duplicate_labels_violation",
    "GwEcc.Post.C55_fref_bounds"
   ],
   "note": "Distinct posterior labels; C55_duplicate_labels_violation shows what happens otherwise. KeyboardInterrupt etc. not modelled."
  },
  {
   "property": "C56",
   "status": "proved",
   "theorems": [
    "GwEcc.Post.C56_intersection",
    "GwEcc.Post.C56_raises_iff",
    "GwEcc.Post.C56_may_be_empty"
   ],
   "note": "The returned range may be empty (C56_may_be_empty)."
  },
  {
   "property": "C57",
   "status": "proved",
   "theorems": [
    "GwEcc.Post.C57_summary"
   ],
   "note": "Exact arithmetic."
  },
  {
   "property": "C58",
   "status": "proved",
   "theorems": [
    "GwEcc.Post.C58_range_step",
    "GwEcc.Post.C58_range",
    "GwEcc.Post.C58_list",
    "GwEcc.Post.C58_single_and_all",
    "GwEcc.Post.C58_malformed"
   ],
   "note": "ASCII text."
  },
  {
   "property": "C59",
   "status": "proved",
   "theorems": [
    "GwEcc.Load.C59_mass_ratio",
    "GwEcc.Load.C59_cases"
   ],
   "note": "Exact arithmetic; C59_cases says which of the three outcomes occurs."
  },
  {
   "property": "C60",
   "status": "proved",
   "theorems": [
    "GwEcc.Load.C60_modes",
    "GwEcc.Load.C60_horizons",
    "GwEcc.Load.C60_end",
    "GwEcc.Load.C60_duration"
   ],
   "note": "The phase of the modes is a parameter (assumed only to have one value per sample, in C60_end)."
  },
  {
   "property": "C61",
   "status": "partial",
   "theorems": [
    "GwEcc.Load.C61_covers_partial",
    "GwEcc.Load.C61_short_violation",
    "GwEcc.Load.C61_mean_anomaly_violation",
    "GwEcc.Load.C61_terminates",
    "GwEcc.Load.Demo.C61_late_violation"
   ],
   "note": "Proved when the generated waveform starts at least ten samples before the NR data; otherwise the slice start is negative and the property is false (C61_short_violation, C61_late_violation). LVCNR files have no mean anomaly: C61_mean_anomaly_violation."
  },
  {
   "property": "C62",
   "status": "partial",
   "theorems": [
    "GwEcc.Load.C62_ignored_violation",
    "GwEcc.Load.C62_required_partial",
    "GwEcc.Load.C62_generator_partial"
   ],
   "note": "False of the loader: C62_ignored_violation. Proved: the option must be given, and the function below the loader passes its argument on."
  },
  {
   "property": "C63",
   "status": "partial",
   "theorems": [
    "GwEcc.Compare.C63_unwrap",
    "GwEcc.Compare.C63_common",
    "GwEcc.Compare.C63_values",
    "GwEcc.Compare.C63_nonneg",
    "GwEcc.Compare.C63_ecc",
    "GwEcc.Compare.C63_symmetric",
    "GwEcc.Compare.C63_agree",
    "GwEcc.Compare.C63_mean_anomaly_partial",
    "GwEcc.Compare.C63_wrap_violation"
   ],
   "note": "Window, nonnegativity, symmetry, zero for agreeing methods proved; mean anomalies modulo 2 pi only if the two start on the same side of 2 pi (otherwise C63_wrap_violation)."
  },
  {
   "property": "C64",
   "status": "partial",
   "theorems": [
    "GwEcc.Compare.C64_never_violation",
    "GwEcc.Compare.C64_cut_partial"
   ],
   "note": "The function always raises (C64_never_violation). Proved: the cut it would make."
  },
  {
   "property": "C65",
   "status": "proved",
   "theorems": [
    "GwEcc.C65_nonneg",
    "GwEcc.C65_units",
    "GwEcc.C65_default",
    "GwEcc.C65_value",
    "GwEcc.C65_dimless"
   ],
   "note": "C65_units: for waveforms that are not rotated first (the rotation is a parameter). C65_value: a quarter of the number of samples in the last orbit but one before the merger. C65_default: this is what the finder is given exactly if the user gives no width."
  },
  {
   "property": "C66",
   "status": "proved",
   "theorems": [
    "GwEcc.C66_separation",
    "GwEcc.C66_separation_strict",
    "GwEcc.C66_separation_silent",
    "GwEcc.C66_dropped"
   ],
   "note": "Both checks of the extrema, at every level, with the exact times listed."
  },
  {
   "property": "C67",
   "status": "proved",
   "theorems": [
    "GwEcc.C67_quiet",
    "GwEcc.C67_strict"
   ],
   "note": "Relation between the runs at two levels carried through every stage of measure_ecc; the extrema finder is external and may raise at a strict level. That the rational fits with their degree search meet the premise is extremaFit_level (Lemmas/ExtremaFit)."
  },
  {
   "property": "C68",
   "status": "partial",
   "theorems": [
    "GwEcc.C68_repeat",
    "GwEcc.C68_fits_partial",
    "GwEcc.C68_fits_violation"
   ],
   "note": "Proved for everything measure_ecc stores itself, with fits that return the same again. Rational fits: the degrees found replace the starting degrees, so a second measurement can use other fits (C68_fits_violation); proved when the monotonic degrees form an initial range (C68_fits_partial)."
  },
  {
   "property": "C69",
   "status": "proved",
   "theorems": [
    "GwEcc.Load.C69_partner",
    "GwEcc.Load.C69_only_on_request",
    "GwEcc.Load.C69_diverges"
   ],
   "note": "The waveform generator is a parameter. C69_diverges: no cap on the number of tries."
  },
  {
   "property": "C70",
   "status": "proved",
   "theorems": [
    "GwEcc.Load.C70_units"
   ],
   "note": "Assumes scale invariance of the generator, linearity of the amplitude and the identity between the LAL constants."
  },
  {
   "property": "C71",
   "status": "proved",
   "theorems": [
    "GwEcc.Load.C71_required",
    "GwEcc.Load.C71_no_directory"
   ],
   "note": "Directory listing as a list of names."
  },
  {
   "property": "C72",
   "status": "partial",
   "theorems": [
    "GwEcc.Load.C72_window_partial",
    "GwEcc.Load.C72_default_violation"
   ],
   "note": "Proved when both times are given. Without end time the last sample only is dropped (C72_default_violation)."
  },
  {
   "property": "C73",
   "status": "proved",
   "theorems": [
    "GwEcc.Load.C73_origins",
    "GwEcc.Load.C73_dispatch",
    "GwEcc.Load.C73_selection"
   ],
   "note": "load_waveform with the table of loaders; the rest of each loader, after its options are checked, is a parameter here (C61, C69-C72, C97, C100, C103)."
  },
  {
   "property": "C74",
   "status": "proved",
   "theorems": [
    "GwEcc.Load.C74_uniform"
   ],
   "note": "Interpolation is a parameter; exact arithmetic (np.arange in floating point may contain one more point)."
  },
  {
   "property": "C75",
   "status": "proved",
   "theorems": [
    "GwEcc.C75_returned_numbers",
    "GwEcc.C75_range"
   ],
   "note": "The curves are what the oracle for scipy (spline) or for the rational fit returns for the nodes at the extrema; rational fits themselves are C31-C34."
  },
  {
   "property": "C76",
   "status": "proved",
   "theorems": [
    "GwEcc.C76_extrema",
    "GwEcc.C76_values",
    "GwEcc.C76_call_extrema",
    "GwEcc.C76_call_values",
    "GwEcc.C76_call_curves"
   ],
   "note": "C76_extrema, C76_values: the measurement; the extrema part assumes increasing time and phase and that no sample is both a pericenter and an apocenter (see C27_coincident). C76_call_*: the whole call (run), without these assumptions, so that pericenters and apocenters take turns with \u2264 instead of <. If zeros are returned because extrema are lacking there are no extrema to vouch for; the part on negative eccentricities holds then too. For the degree search see C31_strict."
  },
  {
   "property": "C77",
   "status": "proved",
   "theorems": [
    "GwEcc.C77_succeeds",
    "GwEcc.C77_frequencies"
   ],
   "note": "Default debug level; other quiet levels follow by C67. C77_succeeds for times, C77_frequencies for frequencies with the default average. For systems whose first extrema are not dropped."
  },
  {
   "property": "C78",
   "status": "proved",
   "theorems": [
    "GwEcc.C78_newtonian_measurement"
   ],
   "note": "Default debug level and time input. The spline and the rational fit are parameters here, assumed (for the degree search see C87) to reproduce constants between their nodes; the finder is assumed to return the apsides. Frequency input is out of reach for a strictly Keplerian orbit, since its average frequency is constant and the code requires it to increase."
  },
  {
   "property": "C79",
   "status": "proved",
   "theorems": [
    "GwEcc.C79_apsides_found",
    "GwEcc.C79_measurement",
    "GwEcc.C79_amplitude_violation"
   ],
   "note": "Bound 6/7 is sharp (C79_amplitude_violation); 9/10 for the frequency is not. The peak finder is a parameter, assumed to report exactly the maxima; for scipy's this says that its width criterion removes none of them (findsAllPeaks_iff). The two fits methods are not covered."
  },
  {
   "property": "C80",
   "status": "partial",
   "theorems": [
    "GwEcc.C80_option",
    "GwEcc.C80_member_partial",
    "GwEcc.C80_value_partial",
    "GwEcc.C80_fits_violation",
    "GwEcc.C80_filter_violation",
    "GwEcc.RunDemo.C80_accepted_violation"
   ],
   "note": "Undocumented options always fail (C80_option), and so do undocumented members of general_interp_kwargs, extrema_finding_kwargs, special_interp_kwargs_for_omega_gw_extrema, of kwargs_for_fits_methods with the fits methods and of filter_kwargs for precessing systems. C80_value_partial: options that are not a dictionary are not ignored. With other methods kwargs_for_fits_methods is not looked at, nor filter_kwargs for other systems: whatever they contain the outcome is the same (C80_fits_violation, C80_filter_violation, C80_accepted_violation)."
  },
  {
   "property": "C81",
   "status": "proved",
   "theorems": [
    "GwEcc.C81_same_options",
    "GwEcc.C81_defaults"
   ],
   "note": "About the composed model of the whole call. The rational fit's option verbose is replaced by the debug level by the code, so its value does not matter at all."
  },
  {
   "property": "C82",
   "status": "proved",
   "theorems": [
    "GwEcc.C82_ignored",
    "GwEcc.C82_warned"
   ],
   "note": "About the composed model of the whole call."
  },
  {
   "property": "C83",
   "status": "proved",
   "theorems": [
    "GwEcc.C83_same_result"
   ],
   "note": "About the composed model. For precessing systems in the inertial frame it is assumed that amplitude and phase recombine to the complex number; quasicircular modes given by amplitudes and phases are the case in which the code is wrong (C48_zeroecc_violation)."
  },
  {
   "property": "C84",
   "status": "partial",
   "theorems": [
    "GwEcc.C84_nonprecessing",
    "GwEcc.C84_violation",
    "GwEcc.C84_meaning_partial"
   ],
   "note": "Holds when the system does not precess. For precessing systems the code enters the completed options of the filter in the caller's dictionary (C84_violation); what remains true is that the changed dictionary means the same in every later call (C84_meaning_partial)."
  },
  {
   "property": "C85",
   "status": "partial",
   "theorems": [
    "GwEcc.C85_units_partial",
    "GwEcc.C85_steps_violation",
    "GwEcc.C85_refine_violation",
    "GwEcc.C85_tolerance_violation",
    "GwEcc.C85_scipy_partial"
   ],
   "note": "C85_units_partial: whole call (data processing, spin filter, segment, residuals, extrema, measurement), any positive unit factors, under covariance of the scipy/numpy routines and of one rational fit (LibUnitFree) and for calls in UnitFreeCall: one of the four methods based on peaks without prescribed heights, or AmplitudeFits without refinement; a segment not selected by frequency; even time steps; no quasicircular average unless its tolerance is zero. C85_scipy_partial: with the modelled splines, monotonic splines, cubic interpolation and peak finder of scipy nothing has to be assumed about these. Missing cases are false: C85_steps_violation (absolute tolerance of np.allclose), C85_refine_violation (AmplitudeFits refines within 0.05/amplitude taken as a time), C85_tolerance_violation (FrequencyFits stops at an absolute tolerance in frequency)."
  },
  {
   "property": "C86",
   "status": "partial",
   "theorems": [
    "GwEcc.C86_ends_partial",
    "GwEcc.C86_nonprecessing",
    "GwEcc.C86_search",
    "GwEcc.C86_advance_violation"
   ],
   "note": "C86_ends_partial: every call ends if the first two times differ by at least 1e-7 (the check of equal steps then makes the times monotonic) and the filter's advance (alpha) and segment size are positive, as they are by default. C86_nonprecessing: without precession there is no condition. C86_search: the searches of the fits methods end. The full statement is false: C86_advance_violation, filter_kwargs={'alpha': 0} makes a precessing call loop for ever. Missing: time steps below 1e-7."
  },
  {
   "property": "C87",
   "status": "proved",
   "theorems": [
    "GwEcc.C87_scipy",
    "GwEcc.C87_returned",
    "GwEcc.C87_returns",
    "GwEcc.C87_complex_returned",
    "GwEcc.C87_complex",
    "GwEcc.C87_modelled",
    "GwEcc.C87_splines"
   ],
   "note": "The whole call (run), with default options or with splines instead of rational fits through the extrema. C87_returned: what a returning call returns. C87_returns: the call returns, and with no bound on loops. Assumed of the libraries (FaithfulLibs, FaithfulFits): splines and one rational fit with given degrees reproduce constants between their nodes; the search for the degrees is modelled and uses equal time steps, and pi is pi. Assumed of the peak finder: it reports all maxima of this signal; with scipy's this says that they are at least as wide as the width computed from the waveform (C87_scipy). C87_splines: with the modelled splines and peak finder of scipy and spline interpolation, nothing else is assumed about the libraries. The rest of the call (preparation, cut, extrema, checks, formula, mean anomaly) is the model. The examples are orbits of every eccentricity in the range, with a concrete library, scipy's splines and finder, and a burst in another mode as the merger. C87_complex(_returned): the same for complex modes, split by numpy (C118). C87_modelled: for eccentricities up to 1/10, complex modes and the option of splines, with numpy, scipy's splines and scipy's peak finder modelled, nothing is assumed of the libraries any more (the width the call asks for is met because Kepler's equation bounds how fast the signal falls off beside an apsis); its premises are met for every such eccentricity by a waveform sampled finely enough."
  },
  {
   "property": "C88",
   "status": "proved",
   "theorems": [
    "GwEcc.C88_splines",
    "GwEcc.C88_eccentricity_lipschitz",
    "GwEcc.C88_constant_sharp",
    "GwEcc.C88_eccentricity_relative",
    "GwEcc.C88_newtonian_accuracy",
    "GwEcc.C88_mean_anomaly",
    "GwEcc.C88_two_measurements",
    "GwEcc.C88_closed_form",
    "GwEcc.C88_call"
   ],
   "note": "Exact real arithmetic. C88_splines bounds how far splines move when the values at their nodes move; that of rational fits is not modelled. The constant is not computed. C88_closed_form: the eccentricity is twice the sine of two thirds of an arctangent."
  },
  {
   "property": "C89",
   "status": "proved",
   "theorems": [
    "GwEcc.C89_times",
    "GwEcc.C89_frequencies"
   ],
   "note": "End-to-end specification of a whole call (run) in terms of the caller's dictionary. Hypotheses: strictly increasing times and arrays of equal lengths; the peak finder, asked with the caller's options completed by the documented defaults, reports positions of samples in increasing order (proved of scipy's: C111_finder); argsort sorts (frequency input). Methods based on fits and precessing systems: see C39-C41, C42-C46 and, for the numbers returned, C75."
  },
  {
   "property": "C90",
   "status": "proved",
   "theorems": [
    "GwEcc.C90_history_independent",
    "GwEcc.C90_ends",
    "GwEcc.C90_order"
   ],
   "note": "C90_history_independent, C90_ends, C90_order, by C84: what earlier calls write into the shared dictionary means the same as what was there. The change of the dictionary is the one modelled in extraAfter; concurrent threads sharing the object are not modelled (joblib's default backend uses processes)."
  },
  {
   "property": "C91",
   "status": "partial",
   "theorems": [
    "GwEcc.Cli.C91_accepts_iff",
    "GwEcc.Cli.C91_columns",
    "GwEcc.Cli.C91_never_raises",
    "GwEcc.Cli.C91_batch",
    "GwEcc.Cli.C91_table_partial",
    "GwEcc.Cli.C91_parallel_partial",
    "GwEcc.Cli.C91_checkpoint_reused",
    "GwEcc.Cli.Demo.C91_other_configuration_violation"
   ],
   "note": "Acceptance (C91_accepts_iff, C91_columns), no exception for any sample (C91_never_raises, C91_batch) and the table (C91_table_partial, C91_parallel_partial) are proved for runs without a checkpoint or with one left by the same command line. Violated otherwise: the checkpoint does not record the configuration, C91_checkpoint_reused describes what happens in general and C91_other_configuration_violation is an instance. Abbreviated options and --name=value are left to argparse; float, json.loads, import and bilby's reader are parameters."
  },
  {
   "property": "C92",
   "status": "partial",
   "theorems": [
    "GwEcc.Cli.C92_layout_partial",
    "GwEcc.Cli.C92_status_violation",
    "GwEcc.Cli.C92_egw_violation"
   ],
   "note": "C92_layout_partial when no column of the posterior has the name of a result column. Violated otherwise: C92_status_violation (no table at all, after all the work), C92_egw_violation."
  },
  {
   "property": "C93",
   "status": "proved",
   "theorems": [
    "GwEcc.C93_optimal",
    "GwEcc.C93_recovers",
    "GwEcc.C93_unfitted"
   ],
   "note": "C93_recovers, C93_optimal, C93_unfitted, in exact arithmetic. The factorizations of numpy and scipy are assumed to do what LinAlg.Sound says (orthonormal and triangular factors, a least unit vector, solutions of triangular systems); exists_sound shows that over the reals such factorizations exist. Assumed: the decomposition converges and the first basis does not break down (norms above 1e-14)."
  },
  {
   "property": "C94",
   "status": "proved",
   "theorems": [
    "GwEcc.Filter.C94_spectrum",
    "GwEcc.Filter.C94_determined",
    "GwEcc.Filter.C94_energy",
    "GwEcc.Filter.C94_oscillation",
    "GwEcc.Filter.C94_segment",
    "GwEcc.Filter.C94_window",
    "GwEcc.Filter.C94_defined"
   ],
   "note": "C94_spectrum, C94_determined, C94_energy, C94_oscillation, C94_segment, C94_defined, C94_window (the values of the window). numpy's rfft, irfft, hamming and hanning are modelled by the formulas of their documentation, over the reals and complex numbers; the fit of the trend is a parameter (see C95)."
  },
  {
   "property": "C95",
   "status": "partial",
   "theorems": [
    "GwEcc.Filter.C95_trend",
    "GwEcc.Filter.C95_chirp",
    "GwEcc.C95_merger_violation",
    "GwEcc.C95_before_partial"
   ],
   "note": "C95_trend, C95_chirp and C95_before_partial prove the property when orbits (also zero) before the merger are excluded. C95_merger_violation: with num_orbits_to_exclude_before_merger=None every precessing call whose total amplitude peaks inside the data, or grows until their end, raises, because the power law is not finite at and after the merger time. scipy's least_squares: residuals that are not finite at the start raise ValueError (documented behaviour, modelled); its iteration is a parameter assumed not to increase the sum of squares."
  },
  {
   "property": "C96",
   "status": "proved",
   "theorems": [
    "GwEcc.Filter.C96_crossings",
    "GwEcc.Filter.C96_few_crossings",
    "GwEcc.Filter.C96_check",
    "GwEcc.Filter.C96_threshold",
    "GwEcc.Filter.C96_segment"
   ],
   "note": "C96_check, C96_crossings, C96_few_crossings, C96_threshold, C96_segment; the trend fit and find_peaks are parameters (the trend fit itself is C95)."
  },
  {
   "property": "C97",
   "status": "partial",
   "theorems": [
    "GwEcc.Load.C97_emri_rows",
    "GwEcc.Load.C97_emri_window",
    "GwEcc.Load.C97_emri_grid",
    "GwEcc.Load.C97_emri_partner_partial",
    "GwEcc.Load.C97_emri_path_violation",
    "GwEcc.Load.C97_emri_directory_violation",
    "GwEcc.Load.C97_eob",
    "GwEcc.Load.C97_eob_rejected",
    "GwEcc.Load.C97_lvcnr",
    "GwEcc.Load.C97_lvcnr_anomaly_violation",
    "GwEcc.Load.C97_lvcnr_hack",
    "GwEcc.Load.C97_not_modes",
    "GwEcc.Load.C97_h22",
    "GwEcc.Load.C97_h22_violation"
   ],
   "note": "False for EMRI files in a directory whose name contains e0 (C97_emri_path_violation, C97_emri_directory_violation) and for the circular waveform of LVCNR files without a mean anomaly (C97_lvcnr_anomaly_violation); the rest is proved (C97_emri_rows, C97_emri_window, C97_emri_grid, C97_emri_partner_partial, C97_eob, C97_eob_rejected, C97_lvcnr, C97_lvcnr_hack). C97_h22_violation: what load_h22_from_EOBfile returns is refused by every call, because arrays stand where dictionaries of modes are expected; it also gives the circular waveform the times of the eccentric one (C97_h22)."
  },
  {
   "property": "C98",
   "status": "proved",
   "theorems": [
    "GwEcc.PostObject.C98_kept",
    "GwEcc.PostObject.C98_no_memory",
    "GwEcc.PostObject.C98_constructed",
    "GwEcc.PostObject.C98_injection",
    "GwEcc.PostObject.C98_no_injection",
    "GwEcc.PostObject.C98_minimum_frequency",
    "GwEcc.PostObject.C98_injection_sample",
    "GwEcc.PostObject.C98_bounds",
    "GwEcc.PostObject.C98_program"
   ],
   "note": "The class default method (Amplitude) differs from that of the program (AmplitudeFits); the agreement is for equal methods. joblib's order of results is assumed, plots and debug are not modelled."
  },
  {
   "property": "C99",
   "status": "partial",
   "theorems": [
    "GwEcc.Sxs.C99_download_partial",
    "GwEcc.Sxs.C99_existing",
    "GwEcc.Sxs.C99_again",
    "GwEcc.Sxs.C99_accepted",
    "GwEcc.Sxs.C99_unknown",
    "GwEcc.Sxs.C99_directories",
    "GwEcc.Sxs.C99_fragment_violation",
    "GwEcc.Sxs.Demo.C99_release_violation"
   ],
   "note": "C99_download_partial needs a server whose transfers show a file only once it is complete, and one release; without these the claim is false: C99_fragment_violation (a fragment is taken for the file for ever), C99_release_violation (files of two releases are mixed). The other parts hold for every server."
  },
  {
   "property": "C100",
   "status": "partial",
   "theorems": [
    "GwEcc.Sxs.C100_new",
    "GwEcc.Sxs.C100_old",
    "GwEcc.Sxs.C100_memory",
    "GwEcc.Sxs.C100_text",
    "GwEcc.Sxs.C100_partner",
    "GwEcc.Sxs.C100_parameters_partial",
    "GwEcc.Sxs.C100_metadata_path_violation",
    "GwEcc.Sxs.C100_clockwise_violation",
    "GwEcc.Sxs.Demo.C100_two_metadata_violation"
   ],
   "note": "All parts are proved except that metadata_path is honoured and that one metadata file is used for everything, which are false (C100_metadata_path_violation, C100_two_metadata_violation); orbits that go clockwise in the horizon data are not removed (C100_clockwise_violation). Reading files, interpolation and the memory computation are parameters; C100_memory assumes complete tables, the memory's starting at ell at most 2 and ending with the strain's."
  },
  {
   "property": "C101",
   "status": "partial",
   "theorems": [
    "GwEcc.Gen.C101_join",
    "GwEcc.Gen.C101_even",
    "GwEcc.Gen.C101_phase",
    "GwEcc.Gen.C101_teob",
    "GwEcc.Gen.C101_esigma",
    "GwEcc.Gen.C101_files_partial",
    "GwEcc.Gen.C101_units",
    "GwEcc.Gen.C101_simulated",
    "GwEcc.Gen.C101_unfinished_violation",
    "GwEcc.Gen.Demo.C101_jump_violation",
    "GwEcc.Gen.Demo.C101_step_violation"
   ],
   "note": "False parts: the phase can jump by a multiple of 2 pi at the common point if the backward phase comes wrapped (C101_jump_violation; C101_phase says when it does not); the file name holds only int(1/delta_t), so a call can return the modes of another step (C101_step_violation; C101_files_partial is what holds); a killed save makes later calls raise for ever (C101_unfinished_violation). Waveform models are parameters; that file names of different arguments differ is assumed; dlm and ylm are the subject of C121; compute_freqInterp is the subject of C122; the approx argument of SEOBNRv4EHM only changes the name of the file."
  },
  {
   "property": "C102",
   "status": "proved",
   "theorems": [
    "GwEcc.C102_numpy",
    "GwEcc.C102_half_turn_needed",
    "GwEcc.C102_rotation",
    "GwEcc.C102_extrema"
   ],
   "note": "The whole call (run) on both waveforms, related stage by stage. Assumptions on the libraries are collected in LibTurnFree (Spec/PhaseOrigin); C118_turn shows that numpy's routines meet them for modes without zeros and jumps by exactly half a turn, C102_numpy restates the result for them, and C102_half_turn_needed shows that the exception is needed. The examples give complex precessing data, complex and real data without precession and the fits method with refinement."
  },
  {
   "property": "C103",
   "status": "proved",
   "theorems": [
    "GwEcc.Load.C103_call",
    "GwEcc.Load.C103_precessing",
    "GwEcc.Load.C103_bad_spins"
   ],
   "note": "The library call is an oracle. The initial mean anomaly is not passed on (C62)."
  },
  {
   "property": "C104",
   "status": "proved",
   "theorems": [
    "GwEcc.C104_cut",
    "GwEcc.C104_same"
   ],
   "note": "C104_cut removes the samples from the n-th on, C104_same compares two waveforms. Assumptions on numpy: amplitude, unwrapped phase and total amplitude at a sample do not depend on later samples. Precessing systems given in the inertial frame are not covered (the frame comes from a library that looks at the whole waveform)."
  },
  {
   "property": "C105",
   "status": "proved",
   "theorems": [
    "GwEcc.C105_modes",
    "GwEcc.C105_stored"
   ],
   "note": "C105_modes: equal returned dictionaries (or the same exception); C105_stored: equal stored measurements and warnings. Spec/OtherModes says what 'the same dominant modes' and 'the time of the merger' are; the total amplitude is a parameter. Waveforms in the inertial frame of precessing systems are excluded: the rotation mixes modes."
  },
  {
   "property": "C106",
   "status": "proved",
   "theorems": [
    "GwEcc.C106_pointwise",
    "GwEcc.C106_fewer",
    "GwEcc.C106_more",
    "GwEcc.C106_frequency",
    "GwEcc.C106_fewer_frequencies"
   ],
   "note": "Whole calls (run), all six methods, precessing or not, filtered or not, with or without the fallback to zeros. Numerical libraries are parameters that answer equal questions equally."
  },
  {
   "property": "C107",
   "status": "proved",
   "theorems": [
    "GwEcc.C107_strict_frequencies",
    "GwEcc.C107_quiet",
    "GwEcc.C107_strict",
    "GwEcc.C107_strict_inertial"
   ],
   "note": "Whole call (run), including the degree search of the rational fits. The spin filter has its own debug level among its options, which is kept. C107_strict_inertial: at level 2 the announcement of the change of frame is an exception."
  },
  {
   "property": "C108",
   "status": "partial",
   "theorems": [
    "GwEcc.C108_off",
    "GwEcc.C108_same_partial",
    "GwEcc.C108_when_partial",
    "GwEcc.C108_bounds_partial",
    "GwEcc.C108_violation",
    "GwEcc.C108_bounds_violation"
   ],
   "note": "Proved: with debug_plots false or absent nothing changes; if the call with the figure returns, the call without returns the same; exact condition for the call with the figure to return (always for frequencies; for times iff the configured average frequency can be computed); get_fref_bounds() and get_fref_bounds(configured method) agree afterwards. False in full: C108_violation (calls for times that return without the figure raise with it) and C108_bounds_violation (bounds of another averaging method). Needs as many amplitudes and frequencies as times, and a level of at least -1."
  },
  {
   "property": "C109",
   "status": "partial",
   "theorems": [
    "GwEcc.C109_panels_partial",
    "GwEcc.C109_residual_violation",
    "GwEcc.C109_data",
    "GwEcc.C109_curves"
   ],
   "note": "Proved: exactly the seven panels promised for every call; drawn curves of eccentricity and mean anomaly are the values that calls for those times return; dots and sample curves. False in full: the panels of the residuals are never drawn (C109_residual_violation), because the processed dictionary never has the key hlm_zeroecc. C109_curves is for the whole waveform (use_only_these_many_orbits not set)."
  },
  {
   "property": "C110",
   "status": "partial",
   "theorems": [
    "GwEcc.C110_merger_partial",
    "GwEcc.C110_excluded_partial",
    "GwEcc.C110_violation"
   ],
   "note": "Proved: an accepted quasicircular waveform reaches the merger of the eccentric one, so times up to the merger are covered; with a number of orbits to exclude and increasing times and phases, every time with a value is covered. False in full: without excluded orbits a time after the end is answered (C110_violation); the guard for it tests for a key the processed dictionary never has."
  },
  {
   "property": "C111",
   "status": "proved",
   "theorems": [
    "GwEcc.C111_finder",
    "GwEcc.C111_fits",
    "GwEcc.C111_units",
    "GwEcc.C111_units_fits",
    "GwEcc.C111_apsides",
    "GwEcc.C111_call",
    "GwEcc.C111_maxima"
   ],
   "note": "C111_maxima, C111_finder, C111_fits, C111_units, C111_units_fits, C111_apsides, C111_call. scipy's find_peaks is modelled from its published algorithm (Model/FindPeaks; its source is not in /repo). These theorems also discharge, for scipy, what other theorems assume of the peak finder (C89, C39, unit independence)."
  },
  {
   "property": "C112",
   "status": "proved",
   "theorems": [
    "GwEcc.C112_filter",
    "GwEcc.C112_fits"
   ],
   "note": "C112_filter, C112_fits. numpy's argsort is a parameter assumed to sort (IsArgsort)."
  },
  {
   "property": "C113",
   "status": "proved",
   "theorems": [
    "GwEcc.C113_none_skipped",
    "GwEcc.C113_conditions",
    "GwEcc.C113_rejected",
    "GwEcc.C113_default",
    "GwEcc.C113_no_width",
    "GwEcc.C113_wider"
   ],
   "note": "C113_conditions, C113_default, C113_no_width, C113_wider, C113_none_skipped; C113_rejected (options scipy rejects make every call fail, whatever the data). Width as scipy documents it: at half the prominence, ends interpolated linearly (Spec/FindPeaks: HasWidth)."
  },
  {
   "property": "C114",
   "status": "partial",
   "theorems": [
    "GwEcc.C114_alternate_partial",
    "GwEcc.PeaksDemo.C114_need_not_alternate"
   ],
   "note": "Proved if the width is zero, when all maxima and minima are reported (C114_alternate_partial). False in general: a width demanded of both kinds removes some of one kind and not of the other (C114_need_not_alternate)."
  },
  {
   "property": "C115",
   "status": "proved",
   "theorems": [
    "GwEcc.C115_exists",
    "GwEcc.C115_values",
    "GwEcc.C115_nodes",
    "GwEcc.C115_polynomial",
    "GwEcc.C115_outside",
    "GwEcc.C115_units",
    "GwEcc.C115_derivative",
    "GwEcc.C115_call",
    "GwEcc.C115_linear"
   ],
   "note": "C115_exists, C115_values, C115_nodes, C115_polynomial, C115_outside, C115_units, C115_derivative, C115_call. scipy's InterpolatedUnivariateSpline is modelled in exact arithmetic from its documentation (Model/Spline): the interpolating spline with FITPACK's choice of knots. That the curve exists and is unique (Schoenberg-Whitney for these knots) is proved, not assumed."
  },
  {
   "property": "C116",
   "status": "proved",
   "theorems": [
    "GwEcc.C116_smooth",
    "GwEcc.C116_follows",
    "GwEcc.C116_monotone"
   ],
   "note": "scipy's PchipInterpolator (Fritsch-Butland slopes) is modelled in exact arithmetic."
  },
  {
   "property": "C117",
   "status": "partial",
   "theorems": [
    "GwEcc.C117_call_partial",
    "GwEcc.C117_violated"
   ],
   "note": "C117_call_partial: the time is the spline through the samples, for any order; a higher frequency gives a later time for order 1. For the default order 3 the statement is false: C117_violated. (The code prints a message when times are not increasing, at debug level 1 and more; the default is silent.) At debug level 2 the times increase in the order asked (last clause of C117_call_partial)."
  },
  {
   "property": "C118",
   "status": "proved",
   "theorems": [
    "GwEcc.C118_recovers",
    "GwEcc.C118_recombine",
    "GwEcc.C118_undersampled",
    "GwEcc.C118_half_turn_needed",
    "GwEcc.C118_turn",
    "GwEcc.C118_sample_by_sample",
    "GwEcc.C118_units",
    "GwEcc.C118_call"
   ],
   "note": "Model/Numpy writes np.abs, np.angle with np.unwrap, amp*exp(-i phase) and the total amplitude over the real and complex numbers; only the rotation of scri stays a parameter. These routines are shown to meet what C48, C83, C85, C102 and C104 assume of them (C118_recombine, C118_units, C118_turn, C118_sample_by_sample)."
  },
  {
   "property": "C119",
   "status": "proved",
   "theorems": [
    "GwEcc.C119_call",
    "GwEcc.C119_sampled"
   ],
   "note": "C119_call proves that the second call returns, with the same numbers; C119_sampled adds the clause on samples for libraries that pass through their points (scipy_throughPoints: scipy's spline as modelled does)."
  },
  {
   "property": "C120",
   "status": "proved",
   "theorems": [
    "GwEcc.C120_chirp"
   ],
   "note": "Proved for libraries that put a constant through points of equal height; scipy_keepsConstants shows that scipy's spline as modelled does."
  },
  {
   "property": "C121",
   "status": "proved",
   "theorems": [
    "GwEcc.C121_total",
    "GwEcc.C121_rotation",
    "GwEcc.C121_reflection",
    "GwEcc.C121_sum_rule",
    "GwEcc.C121_axis",
    "GwEcc.C121_quadrupole"
   ],
   "note": "Exact real arithmetic; float(...) of huge factorials overflows for degrees above about 50, which is not modelled. np.math, which the code uses, no longer exists in numpy 2."
  },
  {
   "property": "C122",
   "status": "proved",
   "theorems": [
    "GwEcc.Gen.C122_spline",
    "GwEcc.Gen.C122_exact",
    "GwEcc.Gen.C122_rejected"
   ],
   "note": "Exact arithmetic; np.angle, np.unwrap and scipy's spline are the modelled ones (C115, C118)."
  },
  {
   "property": "C123",
   "status": "proved",
   "theorems": [
    "GwEcc.C123_anomaly",
    "GwEcc.C123_anomaly_call",
    "GwEcc.C123_formula",
    "GwEcc.C123_call"
   ],
   "note": "C123_formula: the eccentricity is smooth of every order in two positive frequencies (through the arccosine form of the arctangent). C123_call: whole calls with scipy's splines as modelled in Model/Spline; the two splines are those of C115. Positivity of the splines is needed: between their nodes splines may leave the range of the frequencies (C117), and the square root of a negative number is NaN. C123_anomaly, C123_anomaly_call: the mean anomaly, from the stability under moved pericenters (C88)."
  }
 ]
}
