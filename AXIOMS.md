# Axioms of the theorems in MANIFEST.json

Generated by `tools/axioms.py` from `#print axioms`.

## none

`GwEcc.C68_fits_violation`

## `propext`

`GwEcc.Mpi.C49_duplicates_differ`, `GwEcc.Mpi.C51_write_violation`, `GwEcc.Post.C55_never_raises`, `GwEcc.Post.C56_may_be_empty`, `GwEcc.Load.C71_no_directory`, `GwEcc.Load.C73_selection`

## `Quot.sound`, `propext`

`GwEcc.C01_raises`, `GwEcc.C02_unknown_method`, `GwEcc.C02_known_method`, `GwEcc.C02_unknown_frame`, `GwEcc.C03_unrecognised`, `GwEcc.C04_rejects`, `GwEcc.C04_required`, `GwEcc.C04_required_error`, `GwEcc.C08_eccentricity_outside_raises`, `GwEcc.C08_mean_anomaly_outside_raises`, `GwEcc.C08_derivative_outside_raises`, `GwEcc.C10_measured`, `GwEcc.C16_length`, `GwEcc.C20_negative`, `GwEcc.C27_quiet`, `GwEcc.C29_samples`, `GwEcc.C30_bounds`, `GwEcc.C30_history`, `GwEcc.C30_any_history`, `GwEcc.C31_lowered`, `GwEcc.C31_history`, `GwEcc.C35_spline_call`, `GwEcc.C36_contiguous`, `GwEcc.C36_whole`, `GwEcc.C36_estimate`, `GwEcc.C37_rejected`, `GwEcc.C38_unknown_raises`, `GwEcc.C38_residual_needs_data`, `GwEcc.C38_residual_raises`, `GwEcc.Envelope.C41_guard`, `GwEcc.Filter.C45_decision`, `GwEcc.Filter.C45_switched_off`, `GwEcc.Filter.C45_independent`, `GwEcc.Filter.C45_phase_integral`, `GwEcc.Mpi.C50_failed_master_violation`, `GwEcc.Mpi.C54_empty`, `GwEcc.Post.C55_row`, `GwEcc.Post.C55_duplicate_labels_violation`, `GwEcc.Post.C55_fref_bounds`, `GwEcc.Post.C56_intersection`, `GwEcc.Post.C56_raises_iff`, `GwEcc.Load.C61_mean_anomaly_violation`, `GwEcc.Load.C61_terminates`, `GwEcc.Load.C62_ignored_violation`, `GwEcc.Load.C62_required_partial`, `GwEcc.Load.C62_generator_partial`, `GwEcc.Compare.C63_values`, `GwEcc.Compare.C63_ecc`, `GwEcc.Compare.C63_symmetric`, `GwEcc.Compare.C64_never_violation`, `GwEcc.C66_separation_silent`, `GwEcc.C68_repeat`, `GwEcc.Load.C69_partner`, `GwEcc.Load.C69_only_on_request`, `GwEcc.Load.C69_diverges`, `GwEcc.Load.C71_required`, `GwEcc.Load.C72_default_violation`, `GwEcc.C80_member_partial`, `GwEcc.C80_value_partial`, `GwEcc.C82_ignored`, `GwEcc.C84_nonprecessing`, `GwEcc.C84_violation`, `GwEcc.C86_nonprecessing`, `GwEcc.Cli.C91_columns`, `GwEcc.Filter.C96_threshold`, `GwEcc.Load.C97_not_modes`, `GwEcc.Load.C97_h22_violation`, `GwEcc.PostObject.C98_kept`, `GwEcc.PostObject.C98_no_memory`, `GwEcc.PostObject.C98_no_injection`, `GwEcc.Gen.C101_files_partial`, `GwEcc.Gen.C101_unfinished_violation`, `GwEcc.Load.C103_precessing`, `GwEcc.C107_strict_inertial`, `GwEcc.C113_rejected`

## `Classical.choice`, `Quot.sound`, `propext`

`GwEcc.C01_exactly_one`, `GwEcc.C02_dispatch`, `GwEcc.C03_rejected`, `GwEcc.C03_accepted`, `GwEcc.C03_contents`, `GwEcc.C04_values`, `GwEcc.C04_idempotent`, `GwEcc.C05_debug_level`, `GwEcc.C06_shape`, `GwEcc.C07_times_answered`, `GwEcc.C07_extrema_used`, `GwEcc.C07_none_raises`, `GwEcc.C08_no_extrapolation`, `GwEcc.C08_nodes`, `GwEcc.C09_frequencies_answered`, `GwEcc.C09_none_raises`, `GwEcc.C09_upper_bound_refused`, `GwEcc.C10_zero_only_if`, `GwEcc.C10_too_few`, `GwEcc.C11_eccentricity_range`, `GwEcc.C11_eccentricity_boundary`, `GwEcc.C11_reported`, `GwEcc.C12_eccentricity_sign`, `GwEcc.C12_eccentricity_monotone`, `GwEcc.C13_newtonian_limit`, `GwEcc.C13_nonvacuous`, `GwEcc.C14_strain_units`, `GwEcc.C14_time_units`, `GwEcc.C14_ratio`, `GwEcc.C15_mean_anomaly`, `GwEcc.C15_determined`, `GwEcc.C15_zero_at_pericenters`, `GwEcc.C15_local`, `GwEcc.C16_exact`, `GwEcc.C16_linear`, `GwEcc.C16_offset`, `GwEcc.C17_exact`, `GwEcc.C17_amplitude_scale`, `GwEcc.C17_time_affine`, `GwEcc.C18_order`, `GwEcc.C18_order_amplm`, `GwEcc.C18_phases`, `GwEcc.C18_dominates`, `GwEcc.C18_zero`, `GwEcc.C18_scale`, `GwEcc.C19_quantities`, `GwEcc.C19_same_run`, `GwEcc.C19_results`, `GwEcc.C19_missing`, `GwEcc.C20_none`, `GwEcc.C20_cut`, `GwEcc.C20_cut_applies`, `GwEcc.C20_monotone`, `GwEcc.HeapProps.C21_unchanged_partial`, `GwEcc.HeapProps.C21_arrays_partial`, `GwEcc.HeapProps.C21_omegalm_violation`, `GwEcc.HeapProps.C21_hlm_violation`, `GwEcc.HeapProps.C22_history_partial`, `GwEcc.HeapProps.C22_twice_partial`, `GwEcc.HeapProps.C22_hlm_violation`, `GwEcc.HeapProps.C22_omegalm_violation`, `GwEcc.HeapProps.C22_fits_violation`, `GwEcc.C23_contiguous`, `GwEcc.C23_total`, `GwEcc.C23_unchanged`, `GwEcc.C24_end`, `GwEcc.C24_end_untouched`, `GwEcc.C24_start_violation`, `GwEcc.C24_start_partial`, `GwEcc.C24_used`, `GwEcc.C25_end`, `GwEcc.C25_start_violation`, `GwEcc.C25_start_partial`, `GwEcc.C25_otherwise`, `GwEcc.C25_used`, `GwEcc.C26_midpoints`, `GwEcc.C27_alternation`, `GwEcc.C27_coincident`, `GwEcc.C28_formula`, `GwEcc.C28_between`, `GwEcc.C28_attached`, `GwEcc.C28_value`, `GwEcc.C28_not_increasing_raises`, `GwEcc.C28_interpolated`, `GwEcc.C28_methods`, `GwEcc.C29_increasing`, `GwEcc.C29_not_increasing_raises`, `GwEcc.C31_terminates`, `GwEcc.C31_returned`, `GwEcc.C31_raised`, `GwEcc.C31_strict`, `GwEcc.C31_start`, `GwEcc.C31_check`, `GwEcc.C31_gradient`, `GwEcc.C32_terminates`, `GwEcc.C32_reduced`, `GwEcc.C32_raises`, `GwEcc.C32_balanced`, `GwEcc.C33_basis`, `GwEcc.C33_threshold`, `GwEcc.C33_training`, `GwEcc.C33_units`, `GwEcc.C33_interval`, `GwEcc.C34_best`, `GwEcc.C34_first_failure`, `GwEcc.C35_accepts`, `GwEcc.C35_interpolate`, `GwEcc.C35_interpolate_raises`, `GwEcc.Envelope.C36_origin_violation`, `GwEcc.C36_times_partial`, `GwEcc.C36_frequencies_partial`, `GwEcc.C36_unsorted_violation`, `GwEcc.C36_last_sample_violation`, `GwEcc.C37_origin`, `GwEcc.C37_value`, `GwEcc.C37_same`, `GwEcc.C38_sign`, `GwEcc.C38_extrema`, `GwEcc.C38_series`, `GwEcc.Fits.C39_terminates`, `GwEcc.Fits.C39_increasing`, `GwEcc.Fits.C39_extrema`, `GwEcc.Fits.C39_info`, `GwEcc.Fits.C39_passes`, `GwEcc.FitsDemo.C39_may_skip`, `GwEcc.HeapProps.C40_restored_partial`, `GwEcc.HeapProps.C40_exception_violation`, `GwEcc.Envelope.C41_value`, `GwEcc.Envelope.C41_slope`, `GwEcc.Envelope.C41_positive`, `GwEcc.Envelope.C41_increasing`, `GwEcc.Envelope.C41_nondecreasing`, `GwEcc.Envelope.C41_singular`, `GwEcc.Envelope.C41_within_bounds`, `GwEcc.Envelope.C41_start`, `GwEcc.Envelope.C41_postmerger_violation`, `GwEcc.Envelope.C41_secular`, `GwEcc.Envelope.C41_secular_accepts`, `GwEcc.Envelope.C41_origin_violation`, `GwEcc.Filter.C42_mask`, `GwEcc.Filter.C42_antitone`, `GwEcc.Filter.C42_no_gain`, `GwEcc.Filter.C42_zero_width_violation`, `GwEcc.Filter.C43_order`, `GwEcc.Filter.C43_peaks`, `GwEcc.Filter.C43_negative_violation`, `GwEcc.Filter.C44_mean`, `GwEcc.Filter.C44_local_range`, `GwEcc.Filter.C44_range`, `GwEcc.Filter.C44_unchanged`, `GwEcc.Filter.C44_first`, `GwEcc.Filter.C44_last`, `GwEcc.Filter.C44_applyFilter`, `GwEcc.Filter.C44_ends`, `GwEcc.Filter.C44_hann`, `GwEcc.Filter.C45_originals`, `GwEcc.Filter.C45_filtered`, `GwEcc.Filter.C45_symmetric_violation`, `GwEcc.Filter.C45_no_padding_violation`, `GwEcc.Filter.C46_terminates`, `GwEcc.Filter.C46_centres`, `GwEcc.C47_columns`, `GwEcc.C47_missing_raises`, `GwEcc.C47_missing_error`, `GwEcc.C47_roundtrip`, `GwEcc.C48_eccentric`, `GwEcc.C48_zeroecc_partial`, `GwEcc.C48_zeroecc_violation`, `GwEcc.C48_flag_violation`, `GwEcc.Mpi.C49_parallel_eq_serial`, `GwEcc.Mpi.C50_batches`, `GwEcc.Mpi.C50_negative_batch_violation`, `GwEcc.Mpi.C50_exactly_once`, `GwEcc.Mpi.C50_at_most_once`, `GwEcc.Mpi.C50_clean_shutdown`, `GwEcc.Mpi.C50_terminates`, `GwEcc.Mpi.C50_batch_size_zero_violation`, `GwEcc.Mpi.C50_no_buffering`, `GwEcc.Mpi.C51_resume_partial`, `GwEcc.Mpi.C51_not_recomputed`, `GwEcc.Mpi.C52_bounded_loss`, `GwEcc.Mpi.C52_in_flight`, `GwEcc.Mpi.C52_bounded_loss_serial`, `GwEcc.Mpi.C53_same_selection_partial`, `GwEcc.Mpi.C53_other_selection_violation`, `GwEcc.Mpi.C54_selection`, `GwEcc.Mpi.C54_table_partial`, `GwEcc.Mpi.C54_duplicates_violation`, `GwEcc.Post.C55_isolation`, `GwEcc.Post.C57_summary`, `GwEcc.Post.C58_range_step`, `GwEcc.Post.C58_range`, `GwEcc.Post.C58_list`, `GwEcc.Post.C58_single_and_all`, `GwEcc.Post.C58_malformed`, `GwEcc.Load.C59_mass_ratio`, `GwEcc.Load.C59_cases`, `GwEcc.Load.C60_modes`, `GwEcc.Load.C60_horizons`, `GwEcc.Load.C60_end`, `GwEcc.Load.C60_duration`, `GwEcc.Load.C61_covers_partial`, `GwEcc.Load.C61_short_violation`, `GwEcc.Load.Demo.C61_late_violation`, `GwEcc.Compare.C63_unwrap`, `GwEcc.Compare.C63_common`, `GwEcc.Compare.C63_nonneg`, `GwEcc.Compare.C63_agree`, `GwEcc.Compare.C63_mean_anomaly_partial`, `GwEcc.Compare.C63_wrap_violation`, `GwEcc.Compare.C64_cut_partial`, `GwEcc.C65_nonneg`, `GwEcc.C65_units`, `GwEcc.C65_default`, `GwEcc.C65_value`, `GwEcc.C65_dimless`, `GwEcc.C66_separation`, `GwEcc.C66_separation_strict`, `GwEcc.C66_dropped`, `GwEcc.C67_quiet`, `GwEcc.C67_strict`, `GwEcc.C68_fits_partial`, `GwEcc.Load.C70_units`, `GwEcc.Load.C72_window_partial`, `GwEcc.Load.C73_origins`, `GwEcc.Load.C73_dispatch`, `GwEcc.Load.C74_uniform`, `GwEcc.C75_returned_numbers`, `GwEcc.C75_range`, `GwEcc.C76_extrema`, `GwEcc.C76_values`, `GwEcc.C76_call_extrema`, `GwEcc.C76_call_values`, `GwEcc.C76_call_curves`, `GwEcc.C77_succeeds`, `GwEcc.C77_frequencies`, `GwEcc.C78_newtonian_measurement`, `GwEcc.C79_apsides_found`, `GwEcc.C79_measurement`, `GwEcc.C79_amplitude_violation`, `GwEcc.C80_option`, `GwEcc.C80_fits_violation`, `GwEcc.C80_filter_violation`, `GwEcc.RunDemo.C80_accepted_violation`, `GwEcc.C81_same_options`, `GwEcc.C81_defaults`, `GwEcc.C82_warned`, `GwEcc.C83_same_result`, `GwEcc.C84_meaning_partial`, `GwEcc.C85_units_partial`, `GwEcc.C85_steps_violation`, `GwEcc.C85_refine_violation`, `GwEcc.C85_tolerance_violation`, `GwEcc.C85_scipy_partial`, `GwEcc.C86_ends_partial`, `GwEcc.C86_search`, `GwEcc.C86_advance_violation`, `GwEcc.C87_scipy`, `GwEcc.C87_returned`, `GwEcc.C87_returns`, `GwEcc.C87_complex_returned`, `GwEcc.C87_complex`, `GwEcc.C87_modelled`, `GwEcc.C87_splines`, `GwEcc.C88_splines`, `GwEcc.C88_eccentricity_lipschitz`, `GwEcc.C88_constant_sharp`, `GwEcc.C88_eccentricity_relative`, `GwEcc.C88_newtonian_accuracy`, `GwEcc.C88_mean_anomaly`, `GwEcc.C88_two_measurements`, `GwEcc.C88_closed_form`, `GwEcc.C88_call`, `GwEcc.C89_times`, `GwEcc.C89_frequencies`, `GwEcc.C90_history_independent`, `GwEcc.C90_ends`, `GwEcc.C90_order`, `GwEcc.Cli.C91_accepts_iff`, `GwEcc.Cli.C91_never_raises`, `GwEcc.Cli.C91_batch`, `GwEcc.Cli.C91_table_partial`, `GwEcc.Cli.C91_parallel_partial`, `GwEcc.Cli.C91_checkpoint_reused`, `GwEcc.Cli.Demo.C91_other_configuration_violation`, `GwEcc.Cli.C92_layout_partial`, `GwEcc.Cli.C92_status_violation`, `GwEcc.Cli.C92_egw_violation`, `GwEcc.C93_optimal`, `GwEcc.C93_recovers`, `GwEcc.C93_unfitted`, `GwEcc.Filter.C94_spectrum`, `GwEcc.Filter.C94_determined`, `GwEcc.Filter.C94_energy`, `GwEcc.Filter.C94_oscillation`, `GwEcc.Filter.C94_segment`, `GwEcc.Filter.C94_window`, `GwEcc.Filter.C94_defined`, `GwEcc.Filter.C95_trend`, `GwEcc.Filter.C95_chirp`, `GwEcc.C95_merger_violation`, `GwEcc.C95_before_partial`, `GwEcc.Filter.C96_crossings`, `GwEcc.Filter.C96_few_crossings`, `GwEcc.Filter.C96_check`, `GwEcc.Filter.C96_segment`, `GwEcc.Load.C97_emri_rows`, `GwEcc.Load.C97_emri_window`, `GwEcc.Load.C97_emri_grid`, `GwEcc.Load.C97_emri_partner_partial`, `GwEcc.Load.C97_emri_path_violation`, `GwEcc.Load.C97_emri_directory_violation`, `GwEcc.Load.C97_eob`, `GwEcc.Load.C97_eob_rejected`, `GwEcc.Load.C97_lvcnr`, `GwEcc.Load.C97_lvcnr_anomaly_violation`, `GwEcc.Load.C97_lvcnr_hack`, `GwEcc.Load.C97_h22`, `GwEcc.PostObject.C98_constructed`, `GwEcc.PostObject.C98_injection`, `GwEcc.PostObject.C98_minimum_frequency`, `GwEcc.PostObject.C98_injection_sample`, `GwEcc.PostObject.C98_bounds`, `GwEcc.PostObject.C98_program`, `GwEcc.Sxs.C99_download_partial`, `GwEcc.Sxs.C99_existing`, `GwEcc.Sxs.C99_again`, `GwEcc.Sxs.C99_accepted`, `GwEcc.Sxs.C99_unknown`, `GwEcc.Sxs.C99_directories`, `GwEcc.Sxs.C99_fragment_violation`, `GwEcc.Sxs.Demo.C99_release_violation`, `GwEcc.Sxs.C100_new`, `GwEcc.Sxs.C100_old`, `GwEcc.Sxs.C100_memory`, `GwEcc.Sxs.C100_text`, `GwEcc.Sxs.C100_partner`, `GwEcc.Sxs.C100_parameters_partial`, `GwEcc.Sxs.C100_metadata_path_violation`, `GwEcc.Sxs.C100_clockwise_violation`, `GwEcc.Sxs.Demo.C100_two_metadata_violation`, `GwEcc.Gen.C101_join`, `GwEcc.Gen.C101_even`, `GwEcc.Gen.C101_phase`, `GwEcc.Gen.C101_teob`, `GwEcc.Gen.C101_esigma`, `GwEcc.Gen.C101_units`, `GwEcc.Gen.C101_simulated`, `GwEcc.Gen.Demo.C101_jump_violation`, `GwEcc.Gen.Demo.C101_step_violation`, `GwEcc.C102_numpy`, `GwEcc.C102_half_turn_needed`, `GwEcc.C102_rotation`, `GwEcc.C102_extrema`, `GwEcc.Load.C103_call`, `GwEcc.Load.C103_bad_spins`, `GwEcc.C104_cut`, `GwEcc.C104_same`, `GwEcc.C105_modes`, `GwEcc.C105_stored`, `GwEcc.C106_pointwise`, `GwEcc.C106_fewer`, `GwEcc.C106_more`, `GwEcc.C106_frequency`, `GwEcc.C106_fewer_frequencies`, `GwEcc.C107_strict_frequencies`, `GwEcc.C107_quiet`, `GwEcc.C107_strict`, `GwEcc.C108_off`, `GwEcc.C108_same_partial`, `GwEcc.C108_when_partial`, `GwEcc.C108_bounds_partial`, `GwEcc.C108_violation`, `GwEcc.C108_bounds_violation`, `GwEcc.C109_panels_partial`, `GwEcc.C109_residual_violation`, `GwEcc.C109_data`, `GwEcc.C109_curves`, `GwEcc.C110_merger_partial`, `GwEcc.C110_excluded_partial`, `GwEcc.C110_violation`, `GwEcc.C111_finder`, `GwEcc.C111_fits`, `GwEcc.C111_units`, `GwEcc.C111_units_fits`, `GwEcc.C111_apsides`, `GwEcc.C111_call`, `GwEcc.C111_maxima`, `GwEcc.C112_filter`, `GwEcc.C112_fits`, `GwEcc.C113_none_skipped`, `GwEcc.C113_conditions`, `GwEcc.C113_default`, `GwEcc.C113_no_width`, `GwEcc.C113_wider`, `GwEcc.C114_alternate_partial`, `GwEcc.PeaksDemo.C114_need_not_alternate`, `GwEcc.C115_exists`, `GwEcc.C115_values`, `GwEcc.C115_nodes`, `GwEcc.C115_polynomial`, `GwEcc.C115_outside`, `GwEcc.C115_units`, `GwEcc.C115_derivative`, `GwEcc.C115_call`, `GwEcc.C115_linear`, `GwEcc.C116_smooth`, `GwEcc.C116_follows`, `GwEcc.C116_monotone`, `GwEcc.C117_call_partial`, `GwEcc.C117_violated`, `GwEcc.C118_recovers`, `GwEcc.C118_recombine`, `GwEcc.C118_undersampled`, `GwEcc.C118_half_turn_needed`, `GwEcc.C118_turn`, `GwEcc.C118_sample_by_sample`, `GwEcc.C118_units`, `GwEcc.C118_call`, `GwEcc.C119_call`, `GwEcc.C119_sampled`, `GwEcc.C120_chirp`, `GwEcc.C121_total`, `GwEcc.C121_rotation`, `GwEcc.C121_reflection`, `GwEcc.C121_sum_rule`, `GwEcc.C121_axis`, `GwEcc.C121_quadrupole`, `GwEcc.Gen.C122_spline`, `GwEcc.Gen.C122_exact`, `GwEcc.Gen.C122_rejected`, `GwEcc.C123_anomaly`, `GwEcc.C123_anomaly_call`, `GwEcc.C123_formula`, `GwEcc.C123_call`
