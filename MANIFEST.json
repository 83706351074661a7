{
 "claims": [
  {
   "property": "C01",
   "status": "proved",
   "theorems": [
    "Cdtools.minibatch_step_independent_of_width",
    "Cdtools.chunks_partition_minibatch",
    "Cdtools.epoch_independent_of_width",
    "Cdtools.nonpositive_width_raises"
   ],
   "note": ""
  },
  {
   "property": "C02",
   "status": "proved",
   "theorems": [
    "Cdtools.regularizer_added_once",
    "Cdtools.recorded_loss_is_data_loss"
   ],
   "note": ""
  },
  {
   "property": "C03",
   "status": "proved",
   "theorems": [
    "Cdtools.epoch_counts_loss_history",
    "Cdtools.records_only_grow",
    "Cdtools.epoch_records_exactly_one",
    "Cdtools.epoch_writes_line"
   ],
   "note": "models that do not use checkpoints; checkpoint-skipped epochs are C10"
  },
  {
   "property": "C04",
   "status": "proved",
   "theorems": [
    "Cdtools.generator_yields_recorded_losses"
   ],
   "note": ""
  },
  {
   "property": "C05",
   "status": "partial",
   "theorems": [
    "Cdtools.threaded_epoch_agrees",
    "Cdtools.threaded_epoch_ends_partial",
    "Cdtools.threaded_generator_agrees",
    "Cdtools.threaded_systemExit_never_ends_violated"
   ],
   "note": "fails for a SystemExit raised by model code: the main thread then waits for ever"
  },
  {
   "property": "C06",
   "status": "proved",
   "theorems": [
    "Cdtools.interrupt_stops_at_chunk",
    "Cdtools.interrupt_is_reraised"
   ],
   "note": ""
  },
  {
   "property": "C07",
   "status": "proved",
   "theorems": [
    "Cdtools.epoch_uses_each_exposure_once",
    "Cdtools.epoch_uses_whole_dataset",
    "Cdtools.unshuffled_epoch_in_order",
    "Cdtools.epoch_batch_sizes"
   ],
   "note": ""
  },
  {
   "property": "C08",
   "status": "partial",
   "theorems": [
    "Cdtools.adam_honours_loader_args_partial",
    "Cdtools.custom_loader_used",
    "Cdtools.lbfgs_single_batch",
    "Cdtools.sgd_honours_batch_partial",
    "Cdtools.loader_args_violated"
   ],
   "note": "violated by the code: SGD drops shuffle, batch_size=None raises AttributeError, SGD_optimize default fails"
  },
  {
   "property": "C09",
   "status": "proved",
   "theorems": [
    "Cdtools.learning_rates_follow_last_dictionary",
    "Cdtools.unknown_factors_warn_and_do_nothing",
    "Cdtools.learning_rates_after_reductions"
   ],
   "note": ""
  },
  {
   "property": "C10",
   "status": "partial",
   "theorems": [
    "Cdtools.checkpoint_files_agree_partial",
    "Cdtools.resumed_job_agrees_partial",
    "Cdtools.job_chain_agrees_partial",
    "Cdtools.resume_without_thread_violated",
    "Cdtools.resume_with_momentum_violated",
    "Cdtools.skipped_epochs_counted"
   ],
   "note": "holds for threaded epochs that depend only on saved state; fails for thread=False and for optimizers with momentum"
  },
  {
   "property": "C11",
   "status": "partial",
   "theorems": [
    "Cdtools.checkpoints_never_hold_optimizer_violated",
    "Cdtools.load_needs_optimizer_entry_partial"
   ],
   "note": "violated by the code"
  },
  {
   "property": "C12",
   "status": "proved",
   "theorems": [
    "Cdtools.save_on_exit_always_saves",
    "Cdtools.save_on_exception_saves_iff_raised",
    "Cdtools.save_on_exit_never_silent"
   ],
   "note": ""
  },
  {
   "property": "C13",
   "status": "proved",
   "theorems": [
    "Cdtools.results_dict_roundtrip",
    "Cdtools.results_h5_roundtrip",
    "Cdtools.load_state_dict_partial_update",
    "Cdtools.load_state_dict_shape_mismatch",
    "Cdtools.load_results_missing",
    "Cdtools.save_results_names"
   ],
   "note": ""
  },
  {
   "property": "C14",
   "status": "partial",
   "theorems": [
    "Cdtools.h5_roundtrip_partial",
    "Cdtools.h5_write_into_group_partial",
    "Cdtools.h5_refuses_other_types",
    "Cdtools.h5_slash_key_violated",
    "Cdtools.h5_slash_chain_violated"
   ],
   "note": "holds for keys that are plain h5 names; a key containing a slash is not recovered"
  },
  {
   "property": "C15",
   "status": "partial",
   "theorems": [
    "Cdtools.to_numpy_preserves_structure_partial",
    "Cdtools.to_torch_preserves_structure",
    "Cdtools.conversions_idempotent",
    "Cdtools.torch_then_numpy_partial",
    "Cdtools.conversions_refuse_other",
    "Cdtools.to_numpy_requires_grad_violated"
   ],
   "note": "numpy conversion fails on tensors requiring grad; composition holds up to 0-d arrays for numbers"
  },
  {
   "property": "C16",
   "status": "proved",
   "theorems": [
    "Cdtools.mask_roundtrip",
    "Cdtools.mask_good_pixels",
    "Cdtools.mask_absent",
    "Cdtools.mask_wide_pixels"
   ],
   "note": "of a mask stored in integers wider than 32 bits only the low 32 bits count (mask_wide_pixels)"
  },
  {
   "property": "C17",
   "status": "proved",
   "theorems": [
    "Cdtools.data_roundtrip",
    "Cdtools.shot_info_roundtrip",
    "Cdtools.translations_roundtrip",
    "Cdtools.dark_stack_mean",
    "Cdtools.dark_single"
   ],
   "note": "up to the cast to single precision that the readers apply; axes are lower-cased and stripped by the reader"
  },
  {
   "property": "C18",
   "status": "proved",
   "theorems": [
    "Cdtools.wavelength_roundtrip",
    "Cdtools.wavelength_from_energy",
    "Cdtools.source_energy_consistent",
    "Cdtools.geometry_roundtrip",
    "Cdtools.geometry_from_pixel_sizes",
    "Cdtools.pixel_sizes_stored",
    "Cdtools.distance_from_corner"
   ],
   "note": "up to the casts to single precision"
  },
  {
   "property": "C19",
   "status": "partial",
   "theorems": [
    "Cdtools.entry_info_roundtrip_partial",
    "Cdtools.sample_info_roundtrip_partial",
    "Cdtools.entry_info_violated",
    "Cdtools.surface_normal_frame"
   ],
   "note": "holds for the attributes the reader knows; other keys are not returned, date-like titles become dates, non-ASCII strings are refused"
  },
  {
   "property": "C20",
   "status": "partial",
   "theorems": [
    "Cdtools.ptycho_cxi_roundtrip_partial",
    "Cdtools.ptycho_cxi_file_roundtrip_partial",
    "Cdtools.ptycho_read_single_precision",
    "Cdtools.cxi_dataset_violated"
   ],
   "note": "base class by name fails (no entry_1); a dataset without wavelength can be written but not read"
  },
  {
   "property": "C21",
   "status": "partial",
   "theorems": [
    "Cdtools.nan_pixels_masked",
    "Cdtools.nan_from_file_violated",
    "Cdtools.opposite_infinities_masked_violated",
    "Cdtools.from_cxi_cut_zeros"
   ],
   "note": "exact for the constructor except that a pixel holding +inf and -inf in different exposures is also masked; from_cxi does not mask NaNs at all"
  },
  {
   "property": "C22",
   "status": "proved",
   "theorems": [
    "Cdtools.split_partitions",
    "Cdtools.split_lengths"
   ],
   "note": ""
  },
  {
   "property": "C23",
   "status": "partial",
   "theorems": [
    "Cdtools.pad_keeps_data_partial",
    "Cdtools.pad_argument_forms",
    "Cdtools.pad_shapes_partial",
    "Cdtools.pad_qe_mask_violated"
   ],
   "note": "violated by the code for datasets with a quantum efficiency mask, which is not padded"
  },
  {
   "property": "C24",
   "status": "proved",
   "theorems": [
    "Cdtools.downsample_values",
    "Cdtools.downsample_errors",
    "Cdtools.downsample_conserves_counts",
    "Cdtools.downsample_one",
    "Cdtools.downsample_compose",
    "Cdtools.downsample_compose_masked_pixels_differ",
    "Cdtools.downsample_background_counts_masked_pixels"
   ],
   "note": "the composition law holds on usable pixels when there is a mask and no quantum efficiency mask"
  },
  {
   "property": "C25",
   "status": "proved",
   "theorems": [
    "Cdtools.remove_mask_keeps_alignment",
    "Cdtools.crop_keeps_box",
    "Cdtools.filter_sequences_keep_alignment"
   ],
   "note": ""
  },
  {
   "property": "C26",
   "status": "proved",
   "theorems": [
    "Cdtools.indexing_returns_exposures"
   ],
   "note": ""
  },
  {
   "property": "C27",
   "status": "partial",
   "theorems": [
    "Cdtools.amplitude_mse_distance",
    "Cdtools.recorded_loss_is_mean",
    "Cdtools.recorded_loss_independent_of_batching",
    "Cdtools.aborted_first_epoch_violated"
   ],
   "note": "the divisor is wrong after a first epoch that is aborted: its minibatches are counted again"
  },
  {
   "property": "C28",
   "status": "proved",
   "theorems": [
    "Cdtools.intensity_mse_distance",
    "Cdtools.recorded_loss_is_mean",
    "Cdtools.recorded_loss_independent_of_batching"
   ],
   "note": "for a first epoch that completes (see C27 for aborted ones)"
  },
  {
   "property": "C29",
   "status": "partial",
   "theorems": [
    "Cdtools.poisson_nll_minimum",
    "Cdtools.normalized_poisson_partial",
    "Cdtools.normalized_poisson_violated",
    "Cdtools.recorded_poisson_epochs"
   ],
   "note": "the loss and subtract_min are as stated; the normalized loss can be slightly negative because the offset includes eps"
  },
  {
   "property": "C30",
   "status": "proved",
   "theorems": [
    "Cdtools.measurements_are_plain",
    "Cdtools.measurement_in_range",
    "Cdtools.detector_slice_selects"
   ],
   "note": "simulate_finite_pixels=True is covered by C82"
  },
  {
   "property": "C31",
   "status": "proved",
   "theorems": [
    "Cdtools.incoherent_sum_depends_on_intensity",
    "Cdtools.incoherent_sum_invariances"
   ],
   "note": ""
  },
  {
   "property": "C32",
   "status": "proved",
   "theorems": [
    "Cdtools.oversampling_averages_blocks"
   ],
   "note": ""
  },
  {
   "property": "C33",
   "status": "proved",
   "theorems": [
    "Cdtools.far_field_unitary"
   ],
   "note": ""
  },
  {
   "property": "C34",
   "status": "proved",
   "theorems": [
    "Cdtools.near_field_unitary",
    "Cdtools.near_field_compose"
   ],
   "note": ""
  },
  {
   "property": "C35",
   "status": "proved",
   "theorems": [
    "Cdtools.angular_spectrum_group",
    "Cdtools.fftfreq_spec",
    "Cdtools.angularSpectrum_bandlimit_ellipse"
   ],
   "note": "bandlimit=None in the group law; the bandlimited version is covered by angularSpectrum_bandlimit"
  },
  {
   "property": "C36",
   "status": "proved",
   "theorems": [
    "Cdtools.convolve_1d_is_circular_convolution",
    "Cdtools.convolve_1d_linear",
    "Cdtools.convolve_1d_identity"
   ],
   "note": ""
  },
  {
   "property": "C37",
   "status": "proved",
   "theorems": [
    "Cdtools.integer_shift_is_roll",
    "Cdtools.shifts_preserve_energy_and_compose",
    "Cdtools.shift_linear"
   ],
   "note": ""
  },
  {
   "property": "C38",
   "status": "partial",
   "theorems": [
    "Cdtools.find_pixel_shift_range_and_maximum",
    "Cdtools.find_pixel_shift_partial",
    "Cdtools.find_pixel_shift_violated",
    "Cdtools.find_pixel_shift_docstring_violated"
   ],
   "note": "fails (result 0) when a Fourier coefficient vanishes, because 0/0 is NaN; the docstring has the opposite sign"
  },
  {
   "property": "C39",
   "status": "proved",
   "theorems": [
    "Cdtools.centroid_inside",
    "Cdtools.centroid_scale",
    "Cdtools.centroid_translate",
    "Cdtools.center_common_shift",
    "Cdtools.center_fixed_point",
    "Cdtools.center_moves_centroid",
    "Cdtools.center_central_pixel_violated",
    "Cdtools.centroid_sq_value"
   ],
   "note": "the target of center() is (n/2, m/2), which for odd sizes is not the central pixel the docstring promises"
  },
  {
   "property": "C40",
   "status": "partial",
   "theorems": [
    "Cdtools.hann_window_partial",
    "Cdtools.hann_window_violated",
    "Cdtools.fourier_upsample_interpolates_partial",
    "Cdtools.fourier_upsample_energy",
    "Cdtools.fourier_upsample_mean_partial",
    "Cdtools.fourier_upsample_violated"
   ],
   "note": "hann_window is right only for square images; fourier_upsample misplaces the zero frequency for odd sizes and even factors"
  },
  {
   "property": "C41",
   "status": "partial",
   "theorems": [
    "Cdtools.windows_inside",
    "Cdtools.fancy_forward_succeeds",
    "Cdtools.linear_object_shift_inside_partial",
    "Cdtools.linear_object_shift_violated"
   ],
   "note": "ptycho_2D_linear(shift_probe=False) reads one row and column past the object when the padding is 0"
  },
  {
   "property": "C42",
   "status": "proved",
   "theorems": [
    "Cdtools.integer_translations_agree",
    "Cdtools.integer_translations_agree_object_shift",
    "Cdtools.integer_translations_agree_stack",
    "Cdtools.subpixel_exit_waves"
   ],
   "note": ""
  },
  {
   "property": "C43",
   "status": "proved",
   "theorems": [
    "Cdtools.translations_pixels_inverse",
    "Cdtools.translations_to_pixel_coordinates",
    "Cdtools.translations_agree"
   ],
   "note": "nondegenerate: the surface normal has a component along the beam and is not in the plane of the basis"
  },
  {
   "property": "C44",
   "status": "proved",
   "theorems": [
    "Cdtools.rpi_interaction_preserves",
    "Cdtools.rpi_interpolates",
    "Cdtools.rpi_exit_wave_constant"
   ],
   "note": "for objects no larger than the probe"
  },
  {
   "property": "C45",
   "status": "partial",
   "theorems": [
    "Cdtools.mode_orders",
    "Cdtools.gaussian_probe_intensity",
    "Cdtools.gaussian_probe_profile",
    "Cdtools.subdominant_modes_partial",
    "Cdtools.subdominant_power_violated",
    "Cdtools.subdominant_polynomials",
    "Cdtools.subdominant_modes_limits"
   ],
   "note": "orders and the gaussian probe are as stated; subdominant modes do not get the documented power because the code divides by the sum of moduli"
  },
  {
   "property": "C46",
   "status": "partial",
   "theorems": [
    "Cdtools.exit_wave_geometry_reciprocal",
    "Cdtools.exit_wave_oversampling_ignored_violated"
   ],
   "note": "the reciprocity is proved in full; the documented parameter oversampling is ignored by the code"
  },
  {
   "property": "C47",
   "status": "partial",
   "theorems": [
    "Cdtools.standardize_defined",
    "Cdtools.standardize_preserves_exit_waves",
    "Cdtools.standardize_normal_form",
    "Cdtools.standardize_idempotent",
    "Cdtools.standardize_canonical",
    "Cdtools.standardize_ramp_partial",
    "Cdtools.standardize_ramp_violated",
    "Cdtools.standardize_plane_wave",
    "Cdtools.standardize_default_region",
    "Cdtools.standardize_small_object_violated"
   ],
   "note": "the ramp correction does not in general centre the spectrum of the probe; for objects below 8 pixels the default region is empty and the object phase is not standardized"
  },
  {
   "property": "C48",
   "status": "proved",
   "theorems": [
    "Cdtools.product_svd_correct",
    "Cdtools.orthogonalize_probes_correct",
    "Cdtools.orthogonalize_probes_weights_correct",
    "Cdtools.linAlg_exists"
   ],
   "note": "torch.linalg.svd and qr enter by their contracts, which are shown to be satisfiable"
  },
  {
   "property": "C49",
   "status": "proved",
   "theorems": [
    "Cdtools.rms_error_is_minimum",
    "Cdtools.rms_error_zero_iff",
    "Cdtools.rms_error_symmetric",
    "Cdtools.rms_error_normalized",
    "Cdtools.rms_error_unaligned",
    "Cdtools.fidelity_definition",
    "Cdtools.fidelity_invariant",
    "Cdtools.fidelity_range",
    "Cdtools.generalized_rms_nonneg",
    "Cdtools.generalized_rms_invariant",
    "Cdtools.generalized_rms_zero_iff",
    "Cdtools.generalized_rms_single"
   ],
   "note": ""
  },
  {
   "property": "C50",
   "status": "proved",
   "theorems": [
    "Cdtools.frc_bounded",
    "Cdtools.frc_scaling",
    "Cdtools.frc_self",
    "Cdtools.frc_proportional",
    "Cdtools.frc_common_shift",
    "Cdtools.frc_rings_disjoint",
    "Cdtools.frc_rings_cover",
    "Cdtools.frc_threshold_range",
    "Cdtools.calc_frc_result",
    "Cdtools.calc_frc_thresholds",
    "Cdtools.frc_frequencies"
   ],
   "note": ""
  },
  {
   "property": "C51",
   "status": "partial",
   "theorems": [
    "Cdtools.power_fractions_sum",
    "Cdtools.power_fractions_distribution",
    "Cdtools.power_fractions_invariant",
    "Cdtools.power_fractions_weights",
    "Cdtools.power_fractions_preorthogonalized",
    "Cdtools.vn_entropy_definition",
    "Cdtools.vn_entropy_invariant",
    "Cdtools.vn_entropy_range",
    "Cdtools.vn_entropy_pure",
    "Cdtools.shannon_range",
    "Cdtools.vn_entropy_single_partial",
    "Cdtools.vn_entropy_single_violated"
   ],
   "note": "the entropy of a single matrix is not normalized: it is the entropy of the stack branch minus log(trace)"
  },
  {
   "property": "C52",
   "status": "partial",
   "theorems": [
    "Cdtools.Inspect.inspect_shows",
    "Cdtools.Inspect.inspect_panels_shows",
    "Cdtools.Inspect.inspect_skipped",
    "Cdtools.Inspect.inspect_keeps_windows",
    "Cdtools.Inspect.inspect_raises",
    "Cdtools.Inspect.standalone_callbacks_partial",
    "Cdtools.Inspect.panel_callbacks_partial",
    "Cdtools.Inspect.panel_condition_ignored",
    "Cdtools.Inspect.late_plot_never_drawn",
    "Cdtools.Inspect.late_plot_example",
    "Cdtools.Inspect.panel_leak",
    "Cdtools.Inspect.stale_callback"
   ],
   "note": "Selection of plots proved in both modes for all lists, levels, conditions and window states; closed windows stay closed over all histories; callback counts proved over all histories. Violated parts proved as negations: the condition of a panel is ignored outside panel mode, plots that become eligible after the first inspection are never drawn, an exception in a panel leaks callbacks, a redraw without sliders keeps stale callbacks."
  },
  {
   "property": "C53",
   "status": "partial",
   "theorems": [
    "Cdtools.loss_dispatch",
    "Cdtools.dm_rank_dispatch",
    "Cdtools.dm_rank_negative_violated",
    "Cdtools.weights_scaled_by_intensities",
    "Cdtools.weights_unscaled",
    "Cdtools.object_view_shape",
    "Cdtools.default_object_view",
    "Cdtools.default_object_view_empty_violated",
    "Cdtools.object_modes_view_violated",
    "Cdtools.explicit_object_view"
   ],
   "note": "names: ASCII case and white space. Violated parts proved: dm_rank below -1 is a RuntimeError of torch, the default view is empty for one-dimensional scans with even probes, and the view crops the mode axis for several object modes"
  },
  {
   "property": "C54",
   "status": "partial",
   "theorems": [
    "Cdtools.initial_parameters",
    "Cdtools.fourier_shifts_violated",
    "Cdtools.backward_propagator_inverse",
    "Cdtools.backward_propagator_near_violated",
    "Cdtools.simulate_translation_violated",
    "Cdtools.FancyIO.init_derived_shapes",
    "Cdtools.FancyIO.results_round_trip",
    "Cdtools.FancyIO.save_results_succeeds_iff",
    "Cdtools.FancyIO.unsaveable_model_violated",
    "Cdtools.FancyIO.broadcast_support_violated",
    "Cdtools.FancyIO.results_missing_parameters"
   ],
   "note": "Violated parts proved as negations: probe_fourier_shifts is initialized from the translation offsets, near-field backward_propagator always raises, models without weights cannot be saved, simulate_probe_translation without Fourier shifts always raises"
  },
  {
   "property": "C55",
   "status": "partial",
   "theorems": [
    "Cdtools.sim_to_dataset_in_order",
    "Cdtools.sim_to_dataset_patterns",
    "Cdtools.sim_to_dataset_errors",
    "Cdtools.sim_orientation",
    "Cdtools.sim_orientation_violated"
   ],
   "note": "patterns proved for all lists and positive widths; the stored orientation is NaN when the surface normal is along y"
  },
  {
   "property": "C56",
   "status": "partial",
   "theorems": [
    "Cdtools.generalized_plane_wave",
    "Cdtools.generalized_norm",
    "Cdtools.generalized_propagator_partial",
    "Cdtools.generalized_propagator_violated"
   ],
   "note": "fails for a propagation vector on the same side of the plane as the offset but at an obtuse angle to it"
  },
  {
   "property": "C57",
   "status": "partial",
   "theorems": [
    "Cdtools.find_shift_partial",
    "Cdtools.find_shift_small_violated",
    "Cdtools.find_shift_maximum",
    "Cdtools.find_shift_copy",
    "Cdtools.find_shift_vanishing_violated",
    "Cdtools.find_shift_resolution_one",
    "Cdtools.find_shift_small_one"
   ],
   "note": "raises for images smaller than 30 pixels; images with a vanishing Fourier coefficient are always found unshifted"
  },
  {
   "property": "C58",
   "status": "proved",
   "theorems": [
    "Cdtools.project_translations_meet_sample"
   ],
   "note": ""
  },
  {
   "property": "C59",
   "status": "partial",
   "theorems": [
    "Cdtools.gaussian_probe_propagates_partial",
    "Cdtools.gaussian_probe_propagation_violated",
    "Cdtools.angular_spectrum_paraxial"
   ],
   "note": "the profile is that of propagation by -z in the convention of the library"
  },
  {
   "property": "C60",
   "status": "proved",
   "theorems": [
    "Cdtools.sharp_probe_matches_data",
    "Cdtools.sharp_probe_propagated_power"
   ],
   "note": ""
  },
  {
   "property": "C61",
   "status": "partial",
   "theorems": [
    "Cdtools.spectral_operators_adjoint",
    "Cdtools.spectral_forward_is_rpi_partial",
    "Cdtools.spectral_forward_violated"
   ],
   "note": "fails when the probe size is even and the object size odd"
  },
  {
   "property": "C62",
   "status": "partial",
   "theorems": [
    "Cdtools.tidy_probes_patterns",
    "Cdtools.tidy_probes_orthogonal",
    "Cdtools.tidy_probes_power",
    "Cdtools.tidy_probes_mean_power",
    "Cdtools.tidy_probes_mean_intensity",
    "Cdtools.probe_intensities_correct",
    "Cdtools.tidy_probes_fails_iff",
    "Cdtools.tidy_probes_fresh_violated"
   ],
   "note": "tidy_probes divides by zero exactly for rank-deficient light fields, which includes every fresh model with 0 < dm_rank < n_modes"
  },
  {
   "property": "C63",
   "status": "partial",
   "theorems": [
    "Cdtools.corrected_translations_forward",
    "Cdtools.corrected_translations_simulated"
   ],
   "note": "holds without simulate_probe_translation; with it the Fourier shifts must be corrected too, by the amount proved"
  },
  {
   "property": "C64",
   "status": "proved",
   "theorems": [
    "Cdtools.scheduler_steps_on_recorded_loss"
   ],
   "note": ""
  },
  {
   "property": "C65",
   "status": "proved",
   "theorems": [
    "Cdtools.forward_basis_change",
    "Cdtools.forward_identity_weights",
    "Cdtools.forward_gauge_linear",
    "Cdtools.forward_gauge_exponentiated",
    "Cdtools.forward_object_padding"
   ],
   "note": "for windows inside the object and one object mode"
  },
  {
   "property": "C66",
   "status": "partial",
   "theorems": [
    "Cdtools.remove_phase_ramp_predictions",
    "Cdtools.remove_phase_ramp_predictions_integer_partial",
    "Cdtools.remove_phase_ramp_moduli",
    "Cdtools.remove_phase_ramp_optimal",
    "Cdtools.remove_phase_ramp_fractional_violated",
    "Cdtools.remove_amplitude_exponent_without_weights",
    "Cdtools.remove_amplitude_exponent_predictions_partial",
    "Cdtools.amplitude_weights_matrices_violated",
    "Cdtools.set_gauge_predictions",
    "Cdtools.set_amplitude_exponent_violated",
    "Cdtools.amplitude_weights_axis_violated",
    "Cdtools.remove_amplitude_exponent_flattens",
    "Cdtools.remove_amplitude_exponent_no_worse"
   ],
   "note": "exact at rounded/integer positions; not at fractional positions of the sinc interaction; without weights the amplitude correction changes relative intensities; the amplitude option of standardize_reconstruction_set always raises KeyError on save_results output"
  },
  {
   "property": "C67",
   "status": "partial",
   "theorems": [
    "Cdtools.probe_intensity_map",
    "Cdtools.illumination_map_partial",
    "Cdtools.illumination_map_violated",
    "Cdtools.fancy_save_keys_base"
   ],
   "note": "the map is as stated given the keys it reads, but FancyPtycho.save_results does not write them (KeyError)"
  },
  {
   "property": "C68",
   "status": "proved",
   "theorems": [
    "Cdtools.synthesize_is_mean",
    "Cdtools.synthesize_stack_length",
    "Cdtools.synthesize_single",
    "Cdtools.synthesize_repeats",
    "Cdtools.synthesize_first_phase"
   ],
   "note": ""
  },
  {
   "property": "C69",
   "status": "partial",
   "theorems": [
    "Cdtools.deconvolved_nan_iff",
    "Cdtools.deconvolved_power",
    "Cdtools.deconvolved_roll",
    "Cdtools.deconvolved_swap",
    "Cdtools.prtf_value",
    "Cdtools.prtf_errors",
    "Cdtools.prtf_proportional",
    "Cdtools.prtf_bound_partial",
    "Cdtools.prtf_bound_violated"
   ],
   "note": "the PRTF exceeds 1 for reconstructions of different intensities"
  },
  {
   "property": "C70",
   "status": "partial",
   "theorems": [
    "Cdtools.gen_frc_range",
    "Cdtools.gen_frc_self",
    "Cdtools.gen_frc_mode_mixing",
    "Cdtools.gen_frc_single_partial",
    "Cdtools.gen_frc_last_ring_violated",
    "Cdtools.gen_frc_result",
    "Cdtools.gen_frc_thresholds",
    "Cdtools.gen_frc_threshold_violated",
    "Cdtools.frc_threshold_limit",
    "Cdtools.ssnr_matches_threshold"
   ],
   "note": "the outermost frequency is in no ring of the generalized FRC, its threshold differs from that of calc_frc, and nbins=None always raises"
  },
  {
   "property": "C71",
   "status": "proved",
   "theorems": [
    "Cdtools.spectral_total_intensity",
    "Cdtools.spectral_mean_pattern",
    "Cdtools.spectral_masked",
    "Cdtools.spectral_order",
    "Cdtools.spectral_profile",
    "Cdtools.spectral_scale",
    "Cdtools.spectral_not_ssnr"
   ],
   "note": "the third result is the mean spectrum, not the SSNR the docstring announces"
  },
  {
   "property": "C72",
   "status": "proved",
   "theorems": [
    "Cdtools.rpi_forward_pattern",
    "Cdtools.rpi_forward_batch",
    "Cdtools.rpi_support",
    "Cdtools.rpi_weights_mixing",
    "Cdtools.rpi_object_mixing",
    "Cdtools.rpi_scale_gauge",
    "Cdtools.rpi_exponentiated",
    "Cdtools.rpi_uniform_object",
    "Cdtools.rpi_regularizer"
   ],
   "note": "forward model without prop distance subtleties; a batch has an extra leading axis of length one"
  },
  {
   "property": "C73",
   "status": "partial",
   "theorems": [
    "Cdtools.rpi_init_dispatch",
    "Cdtools.rpi_guess_modulus",
    "Cdtools.rpi_initial_transmission",
    "Cdtools.rpi_phase_only_violated",
    "Cdtools.rpi_obj_basis_partial",
    "Cdtools.rpi_obj_basis_violated",
    "Cdtools.rpi_support_correct",
    "Cdtools.rpi_support_fails_iff",
    "Cdtools.rpi_support_uniform",
    "Cdtools.calibration_geometry_violated",
    "Cdtools.calibration_background_violated",
    "Cdtools.calibration_mask_violated",
    "Cdtools.rpi_default_background_violated",
    "Cdtools.RpiIO.rpi_object_mode_axis"
   ],
   "note": "Violated parts proved as negations: phase_only without exponentiate_obj, object basis at unequal magnifications, full-size objects, from_calibration geometry and default background/mask, default background with oversampling"
  },
  {
   "property": "C74",
   "status": "partial",
   "theorems": [
    "Cdtools.RpiIO.rpi_results_round_trip",
    "Cdtools.RpiIO.rpi_weight_matrix_violated",
    "Cdtools.RpiIO.rpi_broadcast_support_violated"
   ],
   "note": "refinement of the weight matrix is not restored; supports of another shape than the object cannot be reloaded"
  },
  {
   "property": "C75",
   "status": "partial",
   "theorems": [
    "Cdtools.multislice_forward_propagator",
    "Cdtools.multislice_forward_integer",
    "Cdtools.multislice_blind_pixels",
    "Cdtools.multislice_crop_violated",
    "Cdtools.multislice_transparent_last",
    "Cdtools.multislice_energy",
    "Cdtools.multislice_single_slice",
    "Cdtools.multislice_scale_gauge",
    "Cdtools.multislice_phase_gauge",
    "Cdtools.multislice_coherence",
    "Cdtools.multislice_tidy",
    "Cdtools.multislice_corrected_translations",
    "Cdtools.multislice_subpixel_drift",
    "Cdtools.multislice_transparent_first_violated"
   ],
   "note": "the wave is propagated once more behind the last slice (blind pixels with a cropped propagator), and a fractional translation is applied at every slice instead of once"
  },
  {
   "property": "C76",
   "status": "partial",
   "theorems": [
    "Cdtools.interslice_propagator_partial",
    "Cdtools.interslice_propagator_exchanged",
    "Cdtools.interslice_propagator_violated",
    "Cdtools.multislice_oversampling_violated",
    "Cdtools.multislice_weights_power",
    "Cdtools.multislice_weights_violated",
    "Cdtools.multislice_weight_matrices_violated",
    "Cdtools.multislice_view",
    "Cdtools.multislice_view_violated",
    "Cdtools.ResultsIO.multislice_results_round_trip",
    "Cdtools.ResultsIO.multislice_save_succeeds_iff",
    "Cdtools.ResultsIO.multislice_support_violated",
    "Cdtools.ResultsIO.multislice_background_violated"
   ],
   "note": "Violated parts proved as negations: the propagator exchanges the pixel sizes and ignores oversampling; weights are scaled by the intensities instead of their square roots and matrices raise; the default view is empty; models without weights or translations cannot be saved"
  },
  {
   "property": "C77",
   "status": "partial",
   "theorems": [
    "Cdtools.bilinear_pixel",
    "Cdtools.bilinear_between",
    "Cdtools.bilinear_cell",
    "Cdtools.bilinear_outside",
    "Cdtools.high_na_linear",
    "Cdtools.high_na_frequency",
    "Cdtools.high_na_lens_untilted",
    "Cdtools.high_na_flat_untilted",
    "Cdtools.high_na_intensity",
    "Cdtools.high_na_intensity_squared_violated",
    "Cdtools.high_na_centre_violated"
   ],
   "note": "the zero frequency of the maps is the middle (N-1)/2 of the detector, not the pixel N//2 of far_field, and the solid-angle map multiplies amplitudes, not intensities; both proved as negations"
  },
  {
   "property": "C78",
   "status": "partial",
   "theorems": [
    "Cdtools.bragg_propagation_plane_wave",
    "Cdtools.bragg_propagation_group",
    "Cdtools.bragg_evanescent_violated",
    "Cdtools.translations_agree",
    "Cdtools.bragg_position",
    "Cdtools.bragg_without_weights_violated",
    "Cdtools.bragg_forward_integer",
    "Cdtools.bragg_in_focus",
    "Cdtools.bragg_untilted_distance",
    "Cdtools.bragg_is_fancy",
    "Cdtools.bragg_energy",
    "Cdtools.bragg_coherence",
    "Cdtools.bragg_scale_gauge",
    "Cdtools.bragg_corrected_positions",
    "Cdtools.bragg_corrected_translations_partial"
   ],
   "note": "evanescent waves are not damped; a model without weights cannot simulate (TypeError); with propagated probes corrected_translations changes the propagation distance by the amount proved"
  },
  {
   "property": "C79",
   "status": "partial",
   "theorems": [
    "Cdtools.bragg_obj_basis",
    "Cdtools.bragg_obj_basis_transmission",
    "Cdtools.bragg_normal_precedence",
    "Cdtools.bragg_normal_reflection",
    "Cdtools.bragg_normal_mode_violated",
    "Cdtools.bragg_forward_succeeds",
    "Cdtools.bragg_median",
    "Cdtools.bragg_crop_length",
    "Cdtools.bragg_field_of_view_partial",
    "Cdtools.bragg_field_of_view_violated",
    "Cdtools.ResultsIO.bragg_results_round_trip",
    "Cdtools.ResultsIO.bragg_save_succeeds_iff",
    "Cdtools.ResultsIO.bragg_support_violated"
   ],
   "note": "unknown scattering modes raise AttributeError instead of ValueError; the default view is empty for one-dimensional scans of even probes; models without weights or translations cannot be saved"
  },
  {
   "property": "C80",
   "status": "proved",
   "theorems": [
    "Cdtools.simple_init",
    "Cdtools.simple_initial_prediction",
    "Cdtools.simple_dark_data",
    "Cdtools.simple_forward_succeeds",
    "Cdtools.simple_forward",
    "Cdtools.simple_position",
    "Cdtools.simple_is_fancy",
    "Cdtools.simple_scale_gauge",
    "Cdtools.simple_ramp_gauge",
    "Cdtools.simple_energy",
    "Cdtools.ResultsIO.simple_results_round_trip",
    "Cdtools.ResultsIO.simple_reachable_reprobe"
   ],
   "note": "a dataset without counts gives a probe of NaNs (simple_dark_data)"
  },
  {
   "property": "C81",
   "status": "partial",
   "theorems": [
    "Cdtools.Browse.odometer_cycles",
    "Cdtools.Browse.down_visits_all",
    "Cdtools.Browse.browse_history",
    "Cdtools.Browse.browse_reshape_violated",
    "Cdtools.Browse.nanomap_in_range",
    "Cdtools.Browse.nanomap_right_visits",
    "Cdtools.Browse.nanomap_scroll_violated",
    "Cdtools.Browse.compare_in_range",
    "Cdtools.Browse.compare_difference",
    "Cdtools.Browse.compare_rpi_violated",
    "Cdtools.Browse.browse_locked_violated"
   ],
   "note": "Violated parts proved as negations: redrawing with a stack of another shape raises, the scroll wheel of the dataset browser does nothing, compare cannot show RPI models; after a redraw that needs more sliders than before the sliders are dead"
  },
  {
   "property": "C82",
   "status": "partial",
   "theorems": [
    "Cdtools.fieldAt_pixel",
    "Cdtools.fieldAt_farField",
    "Cdtools.pixelMean_eq",
    "Cdtools.finite_pixels_eq",
    "Cdtools.finite_pixels_close_partial",
    "Cdtools.finite_pixels_shape",
    "Cdtools.finite_pixels_total_violated",
    "Cdtools.finite_pixels_flat_violated",
    "Cdtools.finite_intensity_violated",
    "Cdtools.finite_pixels_coherence",
    "Cdtools.finite_pixels_upsampled"
   ],
   "note": "Exactly violated: the weights are those of frequencies shifted by half a step, which lowers the total by sinc(1/(2n-1))^2; proved within 2 pi/n for square detectors; for other detectors the output has the wrong shape; intensity returns complex numbers"
  },
  {
   "property": "C83",
   "status": "partial",
   "theorems": [
    "Cdtools.center_probes_common_shift",
    "Cdtools.center_probes_compensated_partial",
    "Cdtools.center_probes_support_violated",
    "Cdtools.multislice_center_probes",
    "Cdtools.multislice_center_fourier_violated"
   ],
   "note": "compensation by the object proved for whole pixels; violated parts proved: the support is ignored, and Fourier-space multislice probes are not moved in real space"
  },
  {
   "property": "C84",
   "status": "partial",
   "theorems": [
    "Cdtools.get_rhos_coherence",
    "Cdtools.get_rhos_density",
    "Cdtools.get_rhos_numbers_violated",
    "Cdtools.wavefront_variation_amplitudes",
    "Cdtools.wavefront_variation_root_violated",
    "Cdtools.wavefront_variation_coherence",
    "Cdtools.wavefront_variation_values",
    "Cdtools.wavefront_variation_support_violated"
   ],
   "note": "violated parts proved: get_rhos ignores weights that are numbers; the panel \"square root of summed intensity\" shows the intensity; the intensities beside the images count light outside the support. Probes defined in Fourier space are shown in the far field"
  },
  {
   "property": "C85",
   "status": "partial",
   "theorems": [
    "Cdtools.multi2D_forward_integer",
    "Cdtools.multi2D_energy",
    "Cdtools.multi2D_single_slice",
    "Cdtools.multi2D_coherence",
    "Cdtools.multi2D_clear_doubled_partial",
    "Cdtools.multi2D_corrected_translations",
    "Cdtools.multi2D_default_scale_violated",
    "Cdtools.multi2D_bandlimit_violated",
    "Cdtools.multi2D_rounding_violated",
    "Cdtools.multi2D_tidy_numbers_violated",
    "Cdtools.multi2D_tidy_matrices_violated",
    "Cdtools.multi2D_from_dataset_violated",
    "Cdtools.multi2D_slices_used",
    "Cdtools.multi2D_propagator",
    "Cdtools.multi2D_no_aliasing",
    "Cdtools.bandField_samples",
    "Cdtools.bandField_mul",
    "Cdtools.multi2D_three_slices_violated",
    "Cdtools.multi2D_without_weights_violated"
   ],
   "note": "Violated parts proved as negations: with the default settings the first slice has half the scale; the bandlimit is ignored; at fractions above 1/2 later slices are read one pixel further; tidy_probes does nothing for numbers and rescales the light for matrices; from_dataset always raises. the aliasing prevention (without subpixel shifts) is exact for one and two slices of even size, and from three slices on frequencies wrap around into the detector"
  },
  {
   "property": "C86",
   "status": "partial",
   "theorems": [
    "Cdtools.object_modes_one",
    "Cdtools.object_modes_mixture",
    "Cdtools.object_modes_paired",
    "Cdtools.object_modes_initial",
    "Cdtools.object_modes_mismatch_violated",
    "Cdtools.object_modes_order_violated"
   ],
   "note": "Violated parts proved as negations: the modes are paired one to one (or broadcast), so unequal mode numbers raise and the order of the probe modes matters; the additional object modes start with modulus 1 for the exponential parametrization"
  },
  {
   "property": "C87",
   "status": "partial",
   "theorems": [
    "Cdtools.s_matrix_violated"
   ],
   "note": "the code has an axis left over: for every realistic probe it raises or returns the wrong shape; this is the theorem"
  },
  {
   "property": "C88",
   "status": "proved",
   "theorems": [
    "Cdtools.recorded_loss_zero_iff",
    "Cdtools.recorded_poisson_truth",
    "Cdtools.simulated_data_truth",
    "Cdtools.gradient_at_truth"
   ],
   "note": "first epoch (the normalizers are then as in the first epoch for all later ones, see C28); floats are reals"
  },
  {
   "property": "C89",
   "status": "partial",
   "theorems": [
    "Cdtools.Plot.units_factor",
    "Cdtools.Plot.units_unknown_violated",
    "Cdtools.Plot.plot_positions",
    "Cdtools.Plot.plot_view_projection",
    "Cdtools.Plot.plot_limits",
    "Cdtools.Plot.plot_translations_points",
    "Cdtools.Plot.plot_both_points",
    "Cdtools.Plot.plot_nanomap_points",
    "Cdtools.Plot.plot_translations_axis",
    "Cdtools.Plot.plot_nanomap_mismatch"
   ],
   "note": "violated part proved: an unknown unit raises UnboundLocalError"
  },
  {
   "property": "C90",
   "status": "partial",
   "theorems": [
    "Cdtools.Plot.colorize_faithful",
    "Cdtools.Plot.colorize_scale",
    "Cdtools.Plot.colorize_zero_violated",
    "Cdtools.Plot.colorize_faithful_default",
    "Cdtools.Plot.color_continuous",
    "Cdtools.Plot.colorize_empty_violated"
   ],
   "note": "violated part proved: the colors of an image that is zero everywhere are NaN; faithfulness proved for the hue scheme and for the default table, whose color is also continuous in the complex value"
  },
  {
   "property": "C91",
   "status": "partial",
   "theorems": [
    "Cdtools.Plot.figure_shows_latest",
    "Cdtools.Plot.figure_settings_violated",
    "Cdtools.Plot.figure_cleared_violated",
    "Cdtools.Plot.phase_limits"
   ],
   "note": "violated parts proved: limits and basis of later calls are ignored; after the figure has been cleared nothing plotted on it is displayed"
  },
  {
   "property": "C92",
   "status": "partial",
   "theorems": [
    "Cdtools.stem_probe_far_field",
    "Cdtools.stem_probe_exists",
    "Cdtools.stem_disc",
    "Cdtools.stem_centroid_partial",
    "Cdtools.stem_probe_propagated",
    "Cdtools.stem_probe_empty_violated",
    "Cdtools.stem_centroid_violated",
    "Cdtools.stem_oversampling_violated",
    "Cdtools.stem_spacing_violated"
   ],
   "note": "centroid proved for centred apertures; violated parts proved: NaN if no pixel centre lies in the cone; other centroids differ; with oversampling the aperture is at the wrong place and the propagation uses the wrong pixel size"
  },
  {
   "property": "C93",
   "status": "partial",
   "theorems": [
    "Cdtools.near_geometry_fresnel",
    "Cdtools.near_initial_probe",
    "Cdtools.near_oversampled_violated"
   ],
   "note": "violated part proved: with oversampling the initial probe is propagated with the wrong pixel size"
  },
  {
   "property": "C94",
   "status": "partial",
   "theorems": [
    "Cdtools.Dev.dataset_item_device",
    "Cdtools.Dev.dataset_item_values",
    "Cdtools.Dev.dataset_mask_bool",
    "Cdtools.Dev.dataset_mask_violated",
    "Cdtools.Dev.dataset_to_violated",
    "Cdtools.Dev.dataset_index_violated",
    "Cdtools.Dev.multi2D_to_violated",
    "Cdtools.Dev.dataset_moves_all"
   ],
   "note": "violated parts proved: a positional data type converts the mask; after dataset.to(device) alone the items still come back on the CPU and the recorded intensities stay; get_as with a data type converts tensor indices; Multislice2DPtycho.to returns None and leaves the geometry dictionary behind"
  },
  {
   "property": "C95",
   "status": "partial",
   "theorems": [
    "Cdtools.adam_calls_succeed",
    "Cdtools.adam_amsgrad_violated",
    "Cdtools.lbfgs_calls_succeed",
    "Cdtools.lbfgs_history_violated",
    "Cdtools.lbfgs_settings_last"
   ],
   "note": "violated parts proved (from the stated contracts of torch.optim): amsgrad False then True raises KeyError; a changed history_size raises IndexError once the memory is full"
  },
  {
   "property": "C96",
   "status": "partial",
   "theorems": [
    "Cdtools.model_geometry_roundtrip",
    "Cdtools.geometry_history",
    "Cdtools.geometry_copy",
    "Cdtools.geometry_stale_violated",
    "Cdtools.normal_modes",
    "Cdtools.normal_reflection",
    "Cdtools.normal_unknown_violated"
   ],
   "note": "violated parts proved: an old distance or corner stays when a geometry without one is given; unknown scattering modes are ignored without an error"
  },
  {
   "property": "C97",
   "status": "partial",
   "theorems": [
    "Cdtools.save_figures_by_title",
    "Cdtools.save_figures_none",
    "Cdtools.save_figures_violated"
   ],
   "note": "violated part proved: the file is named by the title of the first axes, so figures with the same first axes (all per-exposure figures of FancyPtycho) overwrite each other"
  },
  {
   "property": "C98",
   "status": "partial",
   "theorems": [
    "Cdtools.inspect_nanomap",
    "Cdtools.inspect_pixel",
    "Cdtools.inspect_pixel_monotone",
    "Cdtools.inspect_nomask_violated"
   ],
   "note": "violated part proved: without a mask inspect raises TypeError"
  },
  {
   "property": "C99",
   "status": "partial",
   "theorems": [
    "Cdtools.spectral_eigenvalue_nonneg",
    "Cdtools.spectral_modes_orthogonal",
    "Cdtools.spectral_guess_masked",
    "Cdtools.spectral_guess_weights",
    "Cdtools.spectral_scale_violated"
   ],
   "note": "the eigensolver of scipy is a contract (it returns eigenpairs); violated part proved: c times the light divides the guess by the square root of c"
  },
  {
   "property": "C100",
   "status": "proved",
   "theorems": [
    "Cdtools.fancy_step_independent_of_width",
    "Cdtools.fancy_step_raises",
    "Cdtools.withTheta_reads",
    "Cdtools.fancy_forward_differentiable",
    "Cdtools.fancy_small_step_lowers_loss"
   ],
   "note": "regularity conditions of the claim are hypotheses"
  },
  {
   "property": "C101",
   "status": "proved",
   "theorems": [
    "Cdtools.fancy_forward_local",
    "Cdtools.fancy_gradient_local"
   ],
   "note": ""
  },
  {
   "property": "C102",
   "status": "partial",
   "theorems": [
    "Cdtools.scan_row_limits",
    "Cdtools.scan_col_limits",
    "Cdtools.scan_row_continuous",
    "Cdtools.scan_row_jump_violated"
   ],
   "note": "violated part proved: at integer positions the last row (column) of the probe jumps from one side of the window to the other; continuous if the probe vanishes there"
  },
  {
   "property": "C103",
   "status": "partial",
   "theorems": [
    "Cdtools.simulated_data_is_data",
    "Cdtools.simulated_data_whole_partial",
    "Cdtools.simulated_data_attached_violated"
   ],
   "note": "holds for FancyPtycho and MultislicePtycho; violated part proved: Bragg2DPtycho and Multislice2DPtycho do not detach the patterns, so training on them raises at the second chunk"
  },
  {
   "property": "C104",
   "status": "proved",
   "theorems": [
    "Cdtools.smooth_step",
    "Cdtools.smooth_step_raises",
    "Cdtools.simple_smooth",
    "Cdtools.simple_step",
    "Cdtools.rpi_smooth",
    "Cdtools.rpi_step",
    "Cdtools.rpi_gradient_support",
    "Cdtools.multislice_smooth",
    "Cdtools.multislice_step",
    "Cdtools.bragg_smooth",
    "Cdtools.bragg_step",
    "Cdtools.training_reads"
   ],
   "note": "regularity conditions of the claim are hypotheses"
  },
  {
   "property": "C105",
   "status": "proved",
   "theorems": [
    "Cdtools.cdata_write_only_adds",
    "Cdtools.ptycho_write_only_adds",
    "Cdtools.ptycho_write_twice_raises",
    "Cdtools.ptycho_file_header",
    "Cdtools.ptycho_read_single_precision"
   ],
   "note": ""
  },
  {
   "property": "C106",
   "status": "partial",
   "theorems": [
    "Cdtools.line_search_unregularized",
    "Cdtools.line_search_regularized_violated"
   ],
   "note": "violated with a regularization factor: the closure returns the data loss but leaves the gradient of the sum, so at a minimum of the data loss no step is ever acceptable"
  },
  {
   "property": "C107",
   "status": "partial",
   "theorems": [
    "Cdtools.pair_result",
    "Cdtools.pair_ranges",
    "Cdtools.pair_repeats",
    "Cdtools.pair_probes_aligned",
    "Cdtools.pair_caller_probe",
    "Cdtools.set_result",
    "Cdtools.set_repeats",
    "Cdtools.set_positions",
    "Cdtools.pair_small_window_violated",
    "Cdtools.pair_small_probe_violated",
    "Cdtools.set_translations_violated",
    "Cdtools.pair_overwrites_input_violated"
   ],
   "note": "violated by the code: the returned translations are not moved with the objects; without the ramp correction the caller's second probe is overwritten; windows and probes below 30 pixels raise. Everything else in the statement is proved"
  },
  {
   "property": "C108",
   "status": "partial",
   "theorems": [
    "Cdtools.panels_tile",
    "Cdtools.fancy_titles_distinct",
    "Cdtools.multislice_titles_violated",
    "Cdtools.multislice_no_weights_violated",
    "Cdtools.fancy_probe_plots",
    "Cdtools.fourier_plots_violated",
    "Cdtools.fancy_object_plots",
    "Cdtools.fancy_phase_only_plot_violated",
    "Cdtools.multislice_object_plots",
    "Cdtools.background_plot",
    "Cdtools.mean_weights_plot",
    "Cdtools.top_mode_plot",
    "Cdtools.rpi_probe_plot",
    "Cdtools.fancy_plots_wanted",
    "Cdtools.multislice_plots_wanted",
    "Cdtools.fancy_outcomes"
   ],
   "note": "violated by the code: Fourier space plots of three models are turned by 180 degrees, three plots of MultislicePtycho share one figure, models without weights cannot be inspected, with phase_only the imaginary part plotted has no effect. Everything else in the statement is proved"
  },
  {
   "property": "C109",
   "status": "partial",
   "theorems": [
    "Cdtools.from_dataset_simulates",
    "Cdtools.initial_patterns_far",
    "Cdtools.initial_patterns_near",
    "Cdtools.initial_total",
    "Cdtools.initial_total_violated",
    "Cdtools.initial_transmission_norm",
    "Cdtools.initial_phase_only_violated",
    "Cdtools.probe_support_disc",
    "Cdtools.support_centre_violated",
    "Cdtools.support_empty_violated",
    "Cdtools.probe_basis_extent",
    "Cdtools.from_dataset_dm_rank"
   ],
   "note": "false of the code in three places (negations proved): with oversampling the first patterns are too dark by the square of the factor; the probe support is centred between pixels, off the focus of the guess, and can be empty; phase_only without exponentiate_obj starts from an absorbing object. Not covered: exact first patterns with a support, or with oversampling (only the total), n_obj_modes > 1 (C86)"
  },
  {
   "property": "C110",
   "status": "partial",
   "theorems": [
    "Cdtools.multislice_fresh",
    "Cdtools.multislice_from_dataset_simulates",
    "Cdtools.multislice_from_dataset_oversampling_violated",
    "Cdtools.multislice_probe_shape_violated",
    "Cdtools.multislice_initial_patterns",
    "Cdtools.multislice_initial_total",
    "Cdtools.multislice_from_dataset_dm_rank"
   ],
   "note": "false of the code in three places (proved): with oversampling the new model can simulate no exposure; the option probe_shape always raises; recorded intensities scale the patterns by their square. Not covered: exact patterns with random phases, weight matrices together with recorded intensities, or a support; simulate_finite_pixels."
  },
  {
   "property": "C111",
   "status": "partial",
   "theorems": [
    "Cdtools.bragg_from_dataset_succeeds",
    "Cdtools.bragg_one_axis_crop_violated",
    "Cdtools.bragg_from_dataset_simulates",
    "Cdtools.bragg_from_dataset_focus",
    "Cdtools.bragg_intensities_violated",
    "Cdtools.bragg_initial_patterns",
    "Cdtools.bragg_initial_total",
    "Cdtools.bragg_initial_total_violated",
    "Cdtools.bragg_from_dataset_geometry",
    "Cdtools.bragg_from_dataset_detector",
    "Cdtools.bragg_from_dataset_lens",
    "Cdtools.bragg_from_dataset_probe_extent"
   ],
   "note": "false of the code in three places (proved): a Fourier crop along one axis raises, the recorded intensities are ignored, and with oversampling the patterns are too dark by its square; the first patterns with tilt correction are not covered"
  },
  {
   "property": "C112",
   "status": "partial",
   "theorems": [
    "Cdtools.downsample_model_geometry",
    "Cdtools.downsample_model_illumination",
    "Cdtools.pad_model_geometry",
    "Cdtools.pad_model_illumination",
    "Cdtools.direct_beam",
    "Cdtools.downsample_positions",
    "Cdtools.pad_centre",
    "Cdtools.pad_positions_violated"
   ],
   "note": "false of the code in one place (proved): padding does not update detector_geometry[\"corner\"], so recorded pixels are reported elsewhere"
  },
  {
   "property": "C113",
   "status": "proved",
   "theorems": [
    "Cdtools.fancy_probe_stability",
    "Cdtools.fancy_object_stability",
    "Cdtools.transmission_stability",
    "Cdtools.fancy_background_stability",
    "Cdtools.amplitude_loss_stability",
    "Cdtools.fancy_probe_loss_stability",
    "Cdtools.fancy_object_loss_stability",
    "Cdtools.multislice_probe_stability",
    "Cdtools.multislice_object_stability",
    "Cdtools.bragg_probe_stability",
    "Cdtools.bragg_object_stability",
    "Cdtools.rpi_object_stability",
    "Cdtools.rpi_probe_stability",
    "Cdtools.simple_probe_stability",
    "Cdtools.simple_object_stability"
   ],
   "note": "the propagator of the near field is assumed to have modulus at most one, which C35 proves for the generated ones; the probe grid may not exceed the detector grid"
  },
  {
   "property": "C114",
   "status": "proved",
   "theorems": [
    "Cdtools.multislice_forward_local",
    "Cdtools.multislice_gradient_local",
    "Cdtools.bragg_forward_local",
    "Cdtools.bragg_gradient_local",
    "Cdtools.simple_forward_local",
    "Cdtools.simple_gradient_local",
    "Cdtools.objWindow_local",
    "Cdtools.no_gradient_of_unchanged"
   ],
   "note": "positions are assumed to lie inside the object (non-negative corner), as C41 shows for fresh models; the gradient is that of the real-valued model wherever it exists"
  },
  {
   "property": "C115",
   "status": "partial",
   "theorems": [
    "Cdtools.fancy_batch_forward",
    "Cdtools.fancy_single_forward",
    "Cdtools.single_without_weights_violated",
    "Cdtools.single_with_ramps_violated",
    "Cdtools.empty_batch_violated",
    "Cdtools.unequal_windows_violated",
    "Cdtools.one_row_window_violated"
   ],
   "note": "the equality is proved for every non-empty batch whose exposures can each be simulated, and for single exposures of models with weights and without phase ramps; the rest of the statement is false and its negation is proved: single exposures of other models and empty batches raise, an exposure that leaves the object makes its whole batch fail, and one that leaves just one row is simulated with this row repeated"
  },
  {
   "property": "C116",
   "status": "partial",
   "theorems": [
    "Cdtools.multislice_batch_forward",
    "Cdtools.multislice_single_forward",
    "Cdtools.multislice_single_violated",
    "Cdtools.bragg_batch_forward",
    "Cdtools.bragg_single_forward",
    "Cdtools.bragg_single_modes_violated",
    "Cdtools.bragg_batch_without_weights_violated",
    "Cdtools.simple_batch_forward"
   ],
   "note": "proved for every non-empty batch whose exposures can each be simulated, for all three classes, and for single exposures of SimplePtycho, of MultislicePtycho with weights and without simulate_probe_translation, and of Bragg2DPtycho with one mode or without propagation; single exposures of the other models raise, which is proved too"
  },
  {
   "property": "C117",
   "status": "proved",
   "theorems": [
    "Cdtools.multi2D_smooth",
    "Cdtools.multi2D_step",
    "Cdtools.multi2D_step_raises",
    "Cdtools.multi2D_reads",
    "Cdtools.multi2D_forward_rounded",
    "Cdtools.multi2D_offsets_untrained"
   ],
   "note": "regularity conditions of the claim are hypotheses"
  },
  {
   "property": "C118",
   "status": "partial",
   "theorems": [
    "Cdtools.loss_arrays",
    "Cdtools.normalizer_arrays",
    "Cdtools.array_closure",
    "Cdtools.models_simulate_batches",
    "Cdtools.fancy_array_step",
    "Cdtools.loss_shape_error",
    "Cdtools.loss_one_row_violated"
   ],
   "note": "false of the code in one case (proved): simulated patterns of a single row are compared with every row of the data; other wrong shapes (more than one row and column) raise"
  },
  {
   "property": "C119",
   "status": "proved",
   "theorems": [
    "Cdtools.adam_unseen",
    "Cdtools.sgd_unseen",
    "Cdtools.sgd_weight_decay_violated",
    "Cdtools.frozen_parameter",
    "Cdtools.adam_first_step",
    "Cdtools.first_step_downhill",
    "Cdtools.adam_step_bounded",
    "Cdtools.adam_constant_gradient",
    "Cdtools.adam_loss_scale",
    "Cdtools.sgd_loss_scale"
   ],
   "note": "the update rules of torch.optim.Adam and torch.optim.SGD are contracts; real arithmetic; sgd_weight_decay_violated is the exception for weight decay that the statement names"
  },
  {
   "property": "C120",
   "status": "proved",
   "theorems": [
    "Cdtools.fancy_adam_unseen",
    "Cdtools.fancy_sgd_unseen",
    "Cdtools.fancy_adam_frozen",
    "Cdtools.fancy_adam_object",
    "Cdtools.fancy_run_closure",
    "Cdtools.fancy_first_step_downhill",
    "Cdtools.adam_unseen"
   ],
   "note": "partial derivatives of the loss stand for autograd; runs in which no simulated window starts above or left of the object (negative slice starts); update rules of torch.optim are contracts"
  },
  {
   "property": "C121",
   "status": "proved",
   "theorems": [
    "Cdtools.fancy_truth_stays",
    "Cdtools.fancy_truth_gradient"
   ],
   "note": "partial derivatives of the loss stand for autograd; the Poisson loss is not in the statement: its gradient at the truth is not zero because of eps (C88)"
  },
  {
   "property": "C122",
   "status": "proved",
   "theorems": [
    "Cdtools.from_dataset_units",
    "Cdtools.forward_units",
    "Cdtools.fresh_simulation_units",
    "Cdtools.corrected_translations_units",
    "Cdtools.reconstruction_units",
    "Cdtools.generalizedPropagator_units",
    "Cdtools.angularSpectrum_units",
    "Cdtools.translationsToPixel_units",
    "Cdtools.exitWaveGeometry_units",
    "Cdtools.datasetNormal_units"
   ],
   "note": "one object mode; real arithmetic (in floats a unit can make squares overflow or underflow)"
  },
  {
   "property": "C123",
   "status": "proved",
   "theorems": [
    "Cdtools.from_dataset_turned",
    "Cdtools.forward_turned",
    "Cdtools.fresh_simulation_turned",
    "Cdtools.corrected_translations_turned",
    "Cdtools.reconstruction_turned",
    "Cdtools.generalizedPropagator_turn",
    "Cdtools.translationsToPixel_turn",
    "Cdtools.exitWaveGeometry_turn",
    "Cdtools.datasetNormal_turn"
   ],
   "note": "one object mode; real arithmetic"
  },
  {
   "property": "C124",
   "status": "partial",
   "theorems": [
    "Cdtools.multislice_from_dataset_units",
    "Cdtools.multislice_forward_units",
    "Cdtools.multislice_corrected_units",
    "Cdtools.bragg_from_dataset_units",
    "Cdtools.bragg_forward_units",
    "Cdtools.bragg_corrected_units",
    "Cdtools.bragg_from_dataset_turned",
    "Cdtools.bragg_forward_turned",
    "Cdtools.bragg_corrected_turned",
    "Cdtools.multislice_from_dataset_turned_partial",
    "Cdtools.multislice_forward_turned_partial",
    "Cdtools.multislice_corrected_turned",
    "Cdtools.multislice_azimuth_violated"
   ],
   "note": "the unit of length: proved for both classes; the azimuth: proved for Bragg2DPtycho, and for MultislicePtycho except for the propagator between the slices, where it is false (negation proved): it takes the pixel sizes from single components of the object basis"
  },
  {
   "property": "C125",
   "status": "proved",
   "theorems": [
    "Cdtools.from_dataset_reorder",
    "Cdtools.forward_reorder",
    "Cdtools.fresh_simulation_reorder",
    "Cdtools.corrected_translations_reorder",
    "Cdtools.fancyRun_reorder",
    "Cdtools.adam_reorder",
    "Cdtools.sgd_reorder",
    "Cdtools.full_batch_reorder",
    "Cdtools.fancyTotal_order",
    "Cdtools.fancyRun_order"
   ],
   "note": "one object mode; real arithmetic (in floats sums depend on their order); update rules of torch.optim are contracts"
  },
  {
   "property": "C126",
   "status": "partial",
   "theorems": [
    "Cdtools.bragg_from_dataset_reorder",
    "Cdtools.bragg_forward_reorder",
    "Cdtools.bragg_corrected_reorder",
    "Cdtools.multislice_from_dataset_reorder_partial",
    "Cdtools.multislice_forward_reorder",
    "Cdtools.multislice_corrected_reorder",
    "Cdtools.multislice_order_violated"
   ],
   "note": "false of MultislicePtycho with weight matrices and recorded intensities when there are as many modes as exposures (negation proved): the intensities then scale the modes; with another number of modes the call raises (C76)"
  },
  {
   "property": "C127",
   "status": "proved",
   "theorems": [
    "Cdtools.from_dataset_moved",
    "Cdtools.forward_moved",
    "Cdtools.corrected_translations_moved",
    "Cdtools.reconstruction_moved",
    "Cdtools.multislice_from_dataset_moved",
    "Cdtools.multislice_forward_moved",
    "Cdtools.bragg_from_dataset_moved",
    "Cdtools.bragg_forward_moved",
    "Cdtools.simulated_translation_origin"
   ],
   "note": "the exception for simulate_probe_translation is in the statement; the way the phase ramp then changes is proved (FancyPtycho)"
  },
  {
   "property": "C128",
   "status": "proved",
   "theorems": [
    "Cdtools.from_dataset_padded",
    "Cdtools.forward_padded",
    "Cdtools.from_dataset_positions",
    "Cdtools.new_model_padding",
    "Cdtools.multislice_from_dataset_positions",
    "Cdtools.multislice_new_model_padding",
    "Cdtools.bragg_from_dataset_positions",
    "Cdtools.bragg_new_model_padding",
    "Cdtools.multislice_from_dataset_padded",
    "Cdtools.multislice_forward_padded",
    "Cdtools.bragg_from_dataset_padded",
    "Cdtools.bragg_forward_padded",
    "Cdtools.objWindow_padded",
    "Cdtools.sincApply_pad"
   ],
   "note": "one object mode; the random numbers of the initial object are the same at the place of the smaller object; the padding is not negative"
  },
  {
   "property": "C129",
   "status": "proved",
   "theorems": [
    "Cdtools.multislice_adam_unseen",
    "Cdtools.multislice_sgd_unseen",
    "Cdtools.bragg_adam_unseen",
    "Cdtools.bragg_sgd_unseen",
    "Cdtools.simple_adam_object",
    "Cdtools.shot_adam_unseen",
    "Cdtools.shot_sgd_unseen",
    "Cdtools.shot_adam_frozen",
    "Cdtools.shot_truth_stays",
    "Cdtools.multislice_truth_stays",
    "Cdtools.bragg_truth_stays",
    "Cdtools.simple_truth_stays",
    "Cdtools.rpi_truth_stays"
   ],
   "note": "partial derivatives of the loss stand for autograd; runs in which no simulated window starts above or left of the object (negative slice starts); update rules of torch.optim are contracts; the Poisson loss is not in the part about the truth (C88)"
  },
  {
   "property": "C130",
   "status": "partial",
   "theorems": [
    "Cdtools.shot_adam_same",
    "Cdtools.shot_sgd_same",
    "Cdtools.multislice_reconstruction_units",
    "Cdtools.multislice_reconstruction_moved",
    "Cdtools.multislice_reconstruction_turned_partial",
    "Cdtools.multislice_reconstruction_reordered",
    "Cdtools.bragg_reconstruction_units",
    "Cdtools.bragg_reconstruction_turned",
    "Cdtools.bragg_reconstruction_moved",
    "Cdtools.bragg_reconstruction_reordered"
   ],
   "note": "turned frame of MultislicePtycho: for a model with the same propagator (see C124 for when from_dataset gives it); partial derivatives stand for autograd; every parameter is optimized and there is no regularizer"
  },
  {
   "property": "C131",
   "status": "proved",
   "theorems": [
    "Cdtools.simple_from_dataset_units",
    "Cdtools.simple_from_dataset_turned",
    "Cdtools.simple_from_dataset_moved",
    "Cdtools.simple_from_dataset_reorder",
    "Cdtools.simple_same_units",
    "Cdtools.simple_same_turned",
    "Cdtools.simple_same_moved"
   ],
   "note": "partial derivatives stand for autograd; the factor of the unit is not zero"
  },
  {
   "property": "C132",
   "status": "proved",
   "theorems": [
    "Cdtools.forward_mode_order",
    "Cdtools.adam_mode_order",
    "Cdtools.multislice_forward_mode_order",
    "Cdtools.multislice_reconstruction_mode_order",
    "Cdtools.bragg_forward_mode_order",
    "Cdtools.bragg_reconstruction_mode_order"
   ],
   "note": "adam_mode_order is about Adam and SGD; the factor of the probe (probe_norm), which the constructor takes from the first mode, is a constant of the model; partial derivatives stand for autograd"
  },
  {
   "property": "C133",
   "status": "proved",
   "theorems": [
    "Cdtools.forward_axes",
    "Cdtools.corrected_translations_axes",
    "Cdtools.reconstruction_axes",
    "Cdtools.multislice_forward_axes",
    "Cdtools.multislice_reconstruction_axes",
    "Cdtools.simple_forward_axes",
    "Cdtools.simple_reconstruction_axes"
   ],
   "note": "the models with any parameter values, and reconstructions from them, where partial derivatives stand for autograd; from_dataset with exchanged axes is C134"
  },
  {
   "property": "C134",
   "status": "proved",
   "theorems": [
    "Cdtools.exitWaveGeometry_axes",
    "Cdtools.sharpProbe_axes",
    "Cdtools.simple_from_dataset_axes",
    "Cdtools.from_dataset_axes",
    "Cdtools.reflection_normal_axes"
   ],
   "note": "a propagated first probe in the far field needs a positive wavelength and distance and basis vectors that do not vanish; the exception of reflection is reflection_normal_axes"
  }
 ]
}