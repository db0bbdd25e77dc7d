{
 "claims": [
  {
   "property": "C01",
   "status": "proved",
   "theorems": [
    "Verif.C01_evolution_acyclic"
   ],
   "note": "all histories, all operators, all offered locations, every topological order and every draw"
  },
  {
   "property": "C02",
   "status": "proved",
   "theorems": [
    "Verif.C02_on_light_path",
    "Verif.C02_single_terminals"
   ],
   "note": ""
  },
  {
   "property": "C03",
   "status": "proved",
   "theorems": [
    "Verif.C03_terminals_and_protected_survive"
   ],
   "note": ""
  },
  {
   "property": "C04",
   "status": "proved",
   "theorems": [
    "Verif.C04_add_series_effect",
    "Verif.C04_add_series_reach"
   ],
   "note": ""
  },
  {
   "property": "C05",
   "status": "proved",
   "theorems": [
    "Verif.C05_offered_pairs_legal",
    "Verif.C05_all_legal_pairs_offered",
    "Verif.C05_add_parallel_effect"
   ],
   "note": ""
  },
  {
   "property": "C06",
   "status": "proved",
   "theorems": [
    "Verif.C06_remove_effect",
    "Verif.C06_remove_reach",
    "Verif.C06_merge_can_add_paths"
   ],
   "note": "exact characterisation of reachability after a removal; a merge can add paths (C06_merge_can_add_paths)"
  },
  {
   "property": "C07",
   "status": "proved",
   "theorems": [
    "Verif.C07_swap_effect",
    "Verif.C07_swap_draw_exists"
   ],
   "note": ""
  },
  {
   "property": "C08",
   "status": "proved",
   "theorems": [
    "Verif.C08_size_accounting",
    "Verif.C08_loops"
   ],
   "note": ""
  },
  {
   "property": "C09",
   "status": "proved",
   "theorems": [
    "Verif.C09_wellformed",
    "Verif.C09_add_edge_never_overwrites"
   ],
   "note": ""
  },
  {
   "property": "C10",
   "status": "proved",
   "theorems": [
    "Verif.C10_limits_nonmerging",
    "Verif.C10_merge_degrees",
    "Verif.C10_limits_step",
    "Verif.C10_limits_history",
    "Verif.C10_merge_breaks_limit"
   ],
   "note": "exact: a step leaves the limits iff it is a merging removal whose ends do not fit (C10_limits_step); over all histories such a step is the only cause (C10_limits_history); it does occur (C10_merge_breaks_limit)"
  },
  {
   "property": "C11",
   "status": "proved",
   "theorems": [
    "Verif.C11_lookup_uniform"
   ],
   "note": ""
  },
  {
   "property": "C12",
   "status": "proved",
   "theorems": [
    "Verif.C12_sampling_legal",
    "Verif.C12_evolve_never_fails",
    "Verif.C12_run_is_history"
   ],
   "note": ""
  },
  {
   "property": "C13",
   "status": "proved",
   "theorems": [
    "Verif.C13_operator_weights"
   ],
   "note": ""
  },
  {
   "property": "C14",
   "status": "proved",
   "theorems": [
    "Verif.C14_tournament",
    "Verif.C14_single_removal"
   ],
   "note": ""
  },
  {
   "property": "C15",
   "status": "proved",
   "theorems": [
    "Verif.C15_schedule",
    "Verif.C15_schedule_ends",
    "Verif.C15_removal_share_monotone",
    "Verif.C15_late_generation_raises"
   ],
   "note": ""
  },
  {
   "property": "C16",
   "status": "proved",
   "theorems": [
    "Verif.C16_lineage_chain"
   ],
   "note": ""
  },
  {
   "property": "C17",
   "status": "proved",
   "theorems": [
    "Verif.C17_propagate_total",
    "Verif.C17_propagate_acyclic"
   ],
   "note": ""
  },
  {
   "property": "C18",
   "status": "proved",
   "theorems": [
    "Verif.C18_solves_dataflow",
    "Verif.C18_order_independent"
   ],
   "note": ""
  },
  {
   "property": "C19",
   "status": "proved",
   "theorems": [
    "Verif.C19_topological_order"
   ],
   "note": ""
  },
  {
   "property": "C20",
   "status": "proved",
   "theorems": [
    "Verif.C20_output_switch",
    "Verif.C20_noise_difference",
    "Verif.C20_switch_unchanged",
    "Verif.C20_switch_stuck_on_error"
   ],
   "note": ""
  },
  {
   "property": "C21",
   "status": "proved",
   "theorems": [
    "Verif.C21_layout_longest_path",
    "Verif.C21_edges_point_forward",
    "Verif.C21_layout_diverges"
   ],
   "note": ""
  },
  {
   "property": "C22",
   "status": "proved",
   "theorems": [
    "Verif.C22_lists_aligned",
    "Verif.C22_same_order",
    "Verif.C22_fails_iff"
   ],
   "note": ""
  },
  {
   "property": "C23",
   "status": "proved",
   "theorems": [
    "Verif.C23_distribute_extracted",
    "Verif.C23_extract_distributed",
    "Verif.C23_only_unlocked_change"
   ],
   "note": ""
  },
  {
   "property": "C24",
   "status": "proved",
   "theorems": [
    "Verif.C24_uniform_within",
    "Verif.C24_uniform_total",
    "Verif.C24_sampled_graph",
    "Verif.C24_triangle_unusable",
    "Verif.C24_step_leaves_bounds"
   ],
   "note": ""
  },
  {
   "property": "C25",
   "status": "proved",
   "theorems": [
    "Verif.C25_size_and_order"
   ],
   "note": ""
  },
  {
   "property": "C26",
   "status": "proved",
   "theorems": [
    "Verif.C26_best_ever",
    "Verif.C26_never_worse"
   ],
   "note": ""
  },
  {
   "property": "C27",
   "status": "proved",
   "theorems": [
    "Verif.C27_rejected",
    "Verif.C27_inserted",
    "Verif.C27_exhaustive",
    "Verif.C27_similar_pair_possible"
   ],
   "note": ""
  },
  {
   "property": "C28",
   "status": "proved",
   "theorems": [
    "Verif.C28_selection_keeps_best",
    "Verif.C28_selection_shared"
   ],
   "note": ""
  },
  {
   "property": "C29",
   "status": "proved",
   "theorems": [
    "Verif.C29_tournament",
    "Verif.C29_tournament_total",
    "Verif.C29_roulette",
    "Verif.C29_roulette_chances",
    "Verif.C29_roulette_pick",
    "Verif.C29_roulette_total",
    "Verif.C29_elite"
   ],
   "note": ""
  },
  {
   "property": "C30",
   "status": "proved",
   "theorems": [
    "Verif.C30_no_elite",
    "Verif.C30_elite_aborts",
    "Verif.C30_elite_runtime_error"
   ],
   "note": ""
  },
  {
   "property": "C31",
   "status": "proved",
   "theorems": [
    "Verif.C31_partition"
   ],
   "note": ""
  },
  {
   "property": "C32",
   "status": "proved",
   "theorems": [
    "Verif.C32_species_radius",
    "Verif.C32_end_of_run"
   ],
   "note": ""
  },
  {
   "property": "C33",
   "status": "proved",
   "theorems": [
    "Verif.C33_threshold_range",
    "Verif.C33_threshold_moves"
   ],
   "note": ""
  },
  {
   "property": "C34",
   "status": "proved",
   "theorems": [
    "Verif.C34_share_reversed",
    "Verif.C34_unscored_member_raises"
   ],
   "note": ""
  },
  {
   "property": "C35",
   "status": "proved",
   "theorems": [
    "Verif.C35_ga",
    "Verif.C35_never_worse",
    "Verif.C35_errors",
    "Verif.C35_total"
   ],
   "note": ""
  },
  {
   "property": "C36",
   "status": "proved",
   "theorems": [
    "Verif.C36_crossover_single",
    "Verif.C36_crossover_double",
    "Verif.C36_mutation",
    "Verif.C36_constraints_inherited"
   ],
   "note": ""
  },
  {
   "property": "C37",
   "status": "proved",
   "theorems": [
    "Verif.C37_adam",
    "Verif.C37_no_iterations",
    "Verif.C37_total",
    "Verif.C37_unclipped_example",
    "Verif.C37_batches_differ"
   ],
   "note": ""
  },
  {
   "property": "C38",
   "status": "proved",
   "theorems": [
    "Verif.C38_frequency_bands",
    "Verif.C38_frequency_edges",
    "Verif.C38_frequency_passive",
    "Verif.C38_frequency_gain",
    "Verif.C38_attributes",
    "Verif.C38_sum_one",
    "Verif.C38_default_equal",
    "Verif.C38_nonneg",
    "Verif.C38_defaults_in_bounds",
    "Verif.C38_bounds",
    "Verif.C38_bands",
    "Verif.C38_power",
    "Verif.C38_not_conserving"
   ],
   "note": ""
  },
  {
   "property": "C39",
   "status": "proved",
   "theorems": [
    "Verif.C39_off",
    "Verif.C39_never_stale",
    "Verif.C39_repeatable",
    "Verif.C39_switch",
    "Verif.C39_resample",
    "Verif.C39_sources",
    "Verif.C39_seeded",
    "Verif.C39_resample_twice",
    "Verif.C39_settings",
    "Verif.C39_phase",
    "Verif.C39_direct_set_fails"
   ],
   "note": ""
  },
  {
   "property": "C40",
   "status": "proved",
   "theorems": [
    "Verif.C40_current",
    "Verif.C40_stale_after_change"
   ],
   "note": ""
  },
  {
   "property": "C41",
   "status": "proved",
   "theorems": [
    "Verif.C41_nicknames",
    "Verif.C41_round_trip",
    "Verif.C41_wrong_count",
    "Verif.C41_keys_lost"
   ],
   "note": ""
  },
  {
   "property": "C42",
   "status": "proved",
   "theorems": [
    "Verif.C42_rows",
    "Verif.C42_two",
    "Verif.C42_partial_lost",
    "Verif.C42_third_overwrites",
    "Verif.C42_algorithms",
    "Verif.C42_errors",
    "Verif.C42_needs_start"
   ],
   "note": ""
  },
  {
   "property": "C43",
   "status": "proved",
   "theorems": [
    "Verif.C43_parameters",
    "Verif.C43_edges",
    "Verif.C43_default_and_errors",
    "Verif.C43_normalize"
   ],
   "note": ""
  },
  {
   "property": "C44",
   "status": "proved",
   "theorems": [
    "Verif.C44_descriptors",
    "Verif.C44_labels",
    "Verif.C44_no_label",
    "Verif.C44_vector",
    "Verif.C44_vector_unregistered",
    "Verif.C44_vector_exceeds_one",
    "Verif.C44_edit_exact",
    "Verif.C44_edit_values"
   ],
   "note": ""
  },
  {
   "property": "C45",
   "status": "proved",
   "theorems": [
    "Verif.C45_set_get",
    "Verif.C45_unknown_name",
    "Verif.C45_constructor",
    "Verif.C45_constructor_list",
    "Verif.C45_defaults_aliased"
   ],
   "note": ""
  },
  {
   "property": "C46",
   "status": "proved",
   "theorems": [
    "Verif.C46_objective_repeatable"
   ],
   "note": ""
  },
  {
   "property": "C47",
   "status": "proved",
   "theorems": [
    "Verif.C47_candidates",
    "Verif.C47_unknown"
   ],
   "note": ""
  },
  {
   "property": "C48",
   "status": "proved",
   "theorems": [
    "Verif.C48_best_of_run",
    "Verif.C48_single_generation",
    "Verif.C48_start_not_counted"
   ],
   "note": ""
  },
  {
   "property": "C49",
   "status": "proved",
   "theorems": [
    "Verif.C49_random_with_speciation",
    "Verif.C49_type_error",
    "Verif.C49_random_run"
   ],
   "note": ""
  },
  {
   "property": "C50",
   "status": "proved",
   "theorems": [
    "Verif.C50_preferential",
    "Verif.C50_sibling_overwritten",
    "Verif.C50_unscored"
   ],
   "note": ""
  },
  {
   "property": "C51",
   "status": "proved",
   "theorems": [
    "Verif.C51_pressure",
    "Verif.C51_reversed",
    "Verif.C51_never_stops",
    "Verif.C51_diverges"
   ],
   "note": ""
  },
  {
   "property": "C52",
   "status": "proved",
   "theorems": [
    "Verif.C52_result",
    "Verif.C52_bounds",
    "Verif.C52_unknown"
   ],
   "note": ""
  },
  {
   "property": "C53",
   "status": "proved",
   "theorems": [
    "Verif.C53_axes",
    "Verif.C53_central",
    "Verif.C53_not_fft_axis",
    "Verif.C53_shifted_axis",
    "Verif.C53_window_setter"
   ],
   "note": ""
  },
  {
   "property": "C54",
   "status": "proved",
   "theorems": [
    "Verif.C54_inverse",
    "Verif.C54_linear",
    "Verif.C54_parseval",
    "Verif.C54_shifts",
    "Verif.C54_psd"
   ],
   "note": ""
  },
  {
   "property": "C55",
   "status": "proved",
   "theorems": [
    "Verif.C55_fiber",
    "Verif.C55_delay_line",
    "Verif.C55_phase_shifter"
   ],
   "note": ""
  },
  {
   "property": "C56",
   "status": "proved",
   "theorems": [
    "Verif.C56_phase_modulator",
    "Verif.C56_phase_law",
    "Verif.C56_intensity_modulator"
   ],
   "note": ""
  },
  {
   "property": "C57",
   "status": "proved",
   "theorems": [
    "Verif.C57_attenuator"
   ],
   "note": ""
  },
  {
   "property": "C58",
   "status": "proved",
   "theorems": [
    "Verif.C58_square_filter"
   ],
   "note": ""
  },
  {
   "property": "C59",
   "status": "proved",
   "theorems": [
    "Verif.C59_mask_padded",
    "Verif.C59_mask_cut",
    "Verif.C59_wave_shaper",
    "Verif.C59_flat",
    "Verif.C59_response"
   ],
   "note": ""
  },
  {
   "property": "C60",
   "status": "proved",
   "theorems": [
    "Verif.C60_waveform",
    "Verif.C60_filter_even",
    "Verif.C60_filter_odd"
   ],
   "note": ""
  },
  {
   "property": "C61",
   "status": "proved",
   "theorems": [
    "Verif.C61_small_signal",
    "Verif.C61_output_limit",
    "Verif.C61_no_saturation"
   ],
   "note": ""
  },
  {
   "property": "C64",
   "status": "proved",
   "theorems": [
    "Verif.C64_every_delay",
    "Verif.C64_no_other_delay",
    "Verif.C64_last_delay_unused",
    "Verif.C64_split_delay",
    "Verif.C64_loss_amplifies"
   ],
   "note": ""
  },
  {
   "property": "C62",
   "status": "proved",
   "theorems": [
    "Verif.C62_photocurrent",
    "Verif.C62_voltage_bounded"
   ],
   "note": ""
  },
  {
   "property": "C63",
   "status": "proved",
   "theorems": [
    "Verif.C63_cw",
    "Verif.C63_pulse_train",
    "Verif.C63_pulse_width",
    "Verif.C63_pulsed_laser",
    "Verif.C63_noisy_signal",
    "Verif.C63_impulse"
   ],
   "note": ""
  },
  {
   "property": "C65",
   "status": "proved",
   "theorems": [
    "Verif.C65_butterworth",
    "Verif.C65_refused",
    "Verif.C65_exp_square",
    "Verif.C65_real_odd",
    "Verif.C65_even_not_real"
   ],
   "note": ""
  },
  {
   "property": "C66",
   "status": "proved",
   "theorems": [
    "Verif.C66_osnr",
    "Verif.C66_absolute",
    "Verif.C66_shot",
    "Verif.C66_linewidth",
    "Verif.C66_linewidth_odd",
    "Verif.C66_superposition",
    "Verif.C66_order",
    "Verif.C66_linewidth_spectrum",
    "Verif.C66_filtered",
    "Verif.C66_ase"
   ],
   "note": ""
  },
  {
   "property": "C67",
   "status": "proved",
   "theorems": [
    "Verif.C67_distances",
    "Verif.C67_noise_suppression",
    "Verif.C67_cosine_range",
    "Verif.C67_cosine_not_cosine",
    "Verif.C67_not_gate_reversed",
    "Verif.C67_filter_design",
    "Verif.C67_mask_precedence",
    "Verif.C67_time_lens",
    "Verif.C67_time_lens_visibility",
    "Verif.C67_mean_square"
   ],
   "note": ""
  },
  {
   "property": "C68",
   "status": "proved",
   "theorems": [
    "Verif.C68_harmonic_index",
    "Verif.C68_index_off_by_one",
    "Verif.C68_index_error",
    "Verif.C68_pulse_delay_invariant",
    "Verif.C68_pulse_target_perfect",
    "Verif.C68_rf_wrong_way",
    "Verif.C68_rf_delay_penalised"
   ],
   "note": ""
  },
  {
   "property": "C69",
   "status": "proved",
   "theorems": [
    "Verif.C69_global_phase",
    "Verif.C69_time_shift",
    "Verif.C69_power_scaling",
    "Verif.C69_superposition",
    "Verif.C69_laser_power"
   ],
   "note": ""
  },
  {
   "property": "C70",
   "status": "proved",
   "theorems": [
    "Verif.C70_listed_history",
    "Verif.C70_update_graph",
    "Verif.C70_copy",
    "Verif.C70_copy_simulates",
    "Verif.C70_copy_faithful_iff",
    "Verif.C70_start_point",
    "Verif.C70_copy_output_changes",
    "Verif.C70_init_graph",
    "Verif.C70_save_hof"
   ],
   "note": ""
  },
  {
   "property": "C71",
   "status": "proved",
   "theorems": [
    "Verif.C71_gains",
    "Verif.C71_energy_budget",
    "Verif.C71_passive_bound",
    "Verif.C71_no_gain",
    "Verif.C71_combiner_gains"
   ],
   "note": ""
  },
  {
   "property": "C72",
   "status": "proved",
   "theorems": [
    "Verif.C72_plain",
    "Verif.C72_snr",
    "Verif.C72_leaves",
    "Verif.C72_fresh",
    "Verif.C72_sequence",
    "Verif.C72_stored",
    "Verif.C72_undrawn_class",
    "Verif.C72_phase_runtime",
    "Verif.C72_phase",
    "Verif.C72_second_foreign",
    "Verif.C72_second",
    "Verif.C72_time_lens",
    "Verif.C72_findings"
   ],
   "note": ""
  },
  {
   "property": "C73",
   "status": "proved",
   "theorems": [
    "Verif.C73_complete",
    "Verif.C73_own",
    "Verif.C73_copy",
    "Verif.C73_copy_blind",
    "Verif.C73_stale",
    "Verif.C73_wrong_design"
   ],
   "note": ""
  },
  {
   "property": "C74",
   "status": "proved",
   "theorems": [
    "Verif.C74_units",
    "Verif.C74_unit_free",
    "Verif.C74_aligned",
    "Verif.C74_shape",
    "Verif.C74_second_order",
    "Verif.C74_lha",
    "Verif.C74_zero_imprecision",
    "Verif.C74_run_depends_on_units",
    "Verif.C74_plot_rows"
   ],
   "note": ""
  },
  {
   "property": "C75",
   "status": "proved",
   "theorems": [
    "Verif.C75_sheets",
    "Verif.C75_shipped",
    "Verif.C75_ready",
    "Verif.C75_placed",
    "Verif.C75_imprecisions",
    "Verif.C75_evolve",
    "Verif.C75_update",
    "Verif.C75_optimised",
    "Verif.C75_guard",
    "Verif.C75_tables_off"
   ],
   "note": ""
  },
  {
   "property": "C76",
   "status": "proved",
   "theorems": [
    "Verif.C76_library",
    "Verif.C76_runs",
    "Verif.C76_evolver",
    "Verif.C76_snapshot",
    "Verif.C76_custom",
    "Verif.C76_by_name",
    "Verif.C76_reload",
    "Verif.C76_vector",
    "Verif.C76_tables",
    "Verif.C76_fits",
    "Verif.C76_shipped",
    "Verif.C76_any_custom",
    "Verif.C76_foreign",
    "Verif.C76_vector_terminals",
    "Verif.C76_surprises"
   ],
   "note": ""
  },
  {
   "property": "C77",
   "status": "proved",
   "theorems": [
    "Verif.C77_kept",
    "Verif.C77_save_object",
    "Verif.C77_save_json",
    "Verif.C77_load",
    "Verif.C77_back",
    "Verif.C77_folder",
    "Verif.C77_identifier_needed",
    "Verif.C77_pointers",
    "Verif.C77_ids",
    "Verif.C77_not_unique",
    "Verif.C77_metadata",
    "Verif.C77_run",
    "Verif.C77_run_new_folder",
    "Verif.C77_run_no_folder",
    "Verif.C77_surprises"
   ],
   "note": ""
  },
  {
   "property": "C78",
   "status": "proved",
   "theorems": [
    "Verif.C78_same",
    "Verif.C78_shown",
    "Verif.C78_score",
    "Verif.C78_names",
    "Verif.C78_names_unique",
    "Verif.C78_table",
    "Verif.C78_open",
    "Verif.C78_open_fails",
    "Verif.C78_run"
   ],
   "note": ""
  },
  {
   "property": "C79",
   "status": "proved",
   "theorems": [
    "Verif.C79_delay_line",
    "Verif.C79_earlier",
    "Verif.C79_fibre_beat",
    "Verif.C79_talbot_odd",
    "Verif.C79_talbot_even",
    "Verif.C79_quarter_talbot",
    "Verif.C79_rate_doubling"
   ],
   "note": ""
  },
  {
   "property": "C80",
   "status": "proved",
   "theorems": [
    "Verif.C80_rf_shapes",
    "Verif.C80_rf_range_period",
    "Verif.C80_rf_reachable",
    "Verif.C80_filter_bands",
    "Verif.C80_filter_goal",
    "Verif.C80_filter_blind",
    "Verif.C80_lens_fringes",
    "Verif.C80_pulse_new",
    "Verif.C80_noise_new",
    "Verif.C80_pulse_goal",
    "Verif.C80_not_gate",
    "Verif.C80_lens_goal"
   ],
   "note": ""
  },
  {
   "property": "C81",
   "status": "proved",
   "theorems": [
    "Verif.C81_signal_current",
    "Verif.C81_photodiode_assigned",
    "Verif.C81_built",
    "Verif.C81_short_list",
    "Verif.C81_filter_fixed",
    "Verif.C81_photodiode_built",
    "Verif.C81_noise_built",
    "Verif.C81_noise_assigned",
    "Verif.C81_noise_amplifier",
    "Verif.C81_signal_named",
    "Verif.C81_noise_named",
    "Verif.C81_noise_named_built",
    "Verif.C81_write_outside",
    "Verif.C81_write",
    "Verif.C81_by_name",
    "Verif.C81_setter_keeps_reference",
    "Verif.C81_shared",
    "Verif.C81_private",
    "Verif.C81_own_list",
    "Verif.C81_copy",
    "Verif.C81_by_name_built",
    "Verif.C81_defaults",
    "Verif.C81_points",
    "Verif.C81_tuning",
    "Verif.C81_stale"
   ],
   "note": ""
  },
  {
   "property": "C82",
   "status": "proved",
   "theorems": [
    "Verif.C82_spectrum",
    "Verif.C82_power",
    "Verif.C82_latest",
    "Verif.C82_louder",
    "Verif.C82_quieter_with_gain",
    "Verif.C82_fine_grid",
    "Verif.C82_mean"
   ],
   "note": ""
  },
  {
   "property": "C83",
   "status": "proved",
   "theorems": [
    "Verif.C83_adam_never_returns",
    "Verif.C83_ga_never_returns",
    "Verif.C83_adam_key_error",
    "Verif.C83_ga_type_error",
    "Verif.C83_one_parameter",
    "Verif.C83_no_generations",
    "Verif.C83_unsorted",
    "Verif.C83_switch",
    "Verif.C83_mutation",
    "Verif.C83_mended",
    "Verif.C83_mended_adam",
    "Verif.C83_stale_scores",
    "Verif.C83_one_individual",
    "Verif.C83_wrong_size",
    "Verif.C83_no_renewal",
    "Verif.C83_batch",
    "Verif.C83_converged",
    "Verif.C83_adam_noise",
    "Verif.C83_ga_noise",
    "Verif.C83_adam_log"
   ],
   "note": ""
  },
  {
   "property": "C84",
   "status": "proved",
   "theorems": [
    "Verif.C84_estimate",
    "Verif.C84_exact",
    "Verif.C84_between",
    "Verif.C84_order",
    "Verif.C84_scale",
    "Verif.C84_nearest",
    "Verif.C84_refused",
    "Verif.C84_mean_spectrum"
   ],
   "note": ""
  },
  {
   "property": "C85",
   "status": "proved",
   "theorems": [
    "Verif.C85_correlation",
    "Verif.C85_stationary",
    "Verif.C85_coherence",
    "Verif.C85_width"
   ],
   "note": ""
  },
  {
   "property": "C86",
   "status": "proved",
   "theorems": [
    "Verif.C86_scaled",
    "Verif.C86_scaled_error",
    "Verif.C86_curve",
    "Verif.C86_all_drawn",
    "Verif.C86_ends",
    "Verif.C86_between",
    "Verif.C86_parallel",
    "Verif.C86_selection",
    "Verif.C86_lines",
    "Verif.C86_load_keeps",
    "Verif.C86_failed_load",
    "Verif.C86_stale_selection",
    "Verif.C86_rows",
    "Verif.C86_heatmap",
    "Verif.C86_labels",
    "Verif.C86_eigen_bars",
    "Verif.C86_eigen_cut"
   ],
   "note": ""
  },
  {
   "property": "C87",
   "status": "proved",
   "theorems": [
    "Verif.C87_rules",
    "Verif.C87_setup",
    "Verif.C87_setup_else",
    "Verif.C87_marked",
    "Verif.C87_inherited",
    "Verif.C87_marked_start",
    "Verif.C87_species_are_labels",
    "Verif.C87_leftover_manager",
    "Verif.C87_checked"
   ],
   "note": ""
  },
  {
   "property": "C88",
   "status": "proved",
   "theorems": [
    "Verif.C88_field",
    "Verif.C88_phases",
    "Verif.C88_two_arms",
    "Verif.C88_balanced",
    "Verif.C88_passive",
    "Verif.C88_dark",
    "Verif.C88_bright",
    "Verif.C88_delays",
    "Verif.C88_comb_filter",
    "Verif.C88_score",
    "Verif.C88_score_range",
    "Verif.C88_second_score"
   ],
   "note": ""
  },
  {
   "property": "C89",
   "status": "proved",
   "theorems": [
    "Verif.C89_same_light",
    "Verif.C89_whole_system",
    "Verif.C89_modulators",
    "Verif.C89_filters",
    "Verif.C89_amplifier",
    "Verif.C89_delay_mark",
    "Verif.C89_delay_response",
    "Verif.C89_delay_outside",
    "Verif.C89_split_delay",
    "Verif.C89_hidden_stage",
    "Verif.C89_history"
   ],
   "note": ""
  },
  {
   "property": "C90",
   "status": "proved",
   "theorems": [
    "Verif.C90_prefix",
    "Verif.C90_scaled",
    "Verif.C90_other_axes",
    "Verif.C90_twice",
    "Verif.C90_compare",
    "Verif.C90_compare_noise",
    "Verif.C90_compare_squared",
    "Verif.C90_inspect_state"
   ],
   "note": ""
  },
  {
   "property": "C91",
   "status": "proved",
   "theorems": [
    "Verif.C91_state",
    "Verif.C91_value",
    "Verif.C91_objective",
    "Verif.C91_score_noise",
    "Verif.C91_score_not_gate",
    "Verif.C91_score_filter",
    "Verif.C91_score_waveform",
    "Verif.C91_score_pulse",
    "Verif.C91_gradient",
    "Verif.C91_hessian",
    "Verif.C91_best_in_box",
    "Verif.C91_curvature",
    "Verif.C91_free_wheeling",
    "Verif.C91_splitter_edge",
    "Verif.C91_filter_kink",
    "Verif.C91_optimum_exists"
   ],
   "note": ""
  },
  {
   "property": "C92",
   "status": "proved",
   "theorems": [
    "Verif.C92_upstream",
    "Verif.C92_components",
    "Verif.C92_swap_edge",
    "Verif.C92_swap_node",
    "Verif.C92_parallel",
    "Verif.C92_remove_parallel",
    "Verif.C92_insert",
    "Verif.C92_insert_ports",
    "Verif.C92_insert_exchanges",
    "Verif.C92_insensitive",
    "Verif.C92_insensitive_sink"
   ],
   "note": ""
  },
  {
   "property": "C93",
   "status": "proved",
   "theorems": [
    "Verif.C93_parallel_undo",
    "Verif.C93_swap_undo",
    "Verif.C93_series_undo",
    "Verif.C93_take_down",
    "Verif.C93_take_down_to",
    "Verif.C93_build_chain",
    "Verif.C93_reach_chain"
   ],
   "note": ""
  },
  {
   "property": "C94",
   "status": "proved",
   "theorems": [
    "Verif.C94_rewrite",
    "Verif.C94_states",
    "Verif.C94_score",
    "Verif.C94_exchange",
    "Verif.C94_merge",
    "Verif.C94_swallowed",
    "Verif.C94_modulator_delay",
    "Verif.C94_attenuate_first",
    "Verif.C94_only_the_sum",
    "Verif.C94_hidden"
   ],
   "note": ""
  },
  {
   "property": "C95",
   "status": "proved",
   "theorems": [
    "Verif.C95_dark",
    "Verif.C95_states",
    "Verif.C95_unlit",
    "Verif.C95_free_wheeling",
    "Verif.C95_prune"
   ],
   "note": ""
  },
  {
   "property": "C96",
   "status": "proved",
   "theorems": [
    "Verif.C96_chance",
    "Verif.C96_offered",
    "Verif.C96_one_direction",
    "Verif.C96_reach",
    "Verif.C96_bound",
    "Verif.C96_weighted",
    "Verif.C96_sensitive_half",
    "Verif.C96_never_drawn"
   ],
   "note": ""
  },
  {
   "property": "C97",
   "status": "proved",
   "theorems": [
    "Verif.C97_insert",
    "Verif.C97_score",
    "Verif.C97_line",
    "Verif.C97_idle",
    "Verif.C97_keeps",
    "Verif.C97_grown",
    "Verif.C97_never_idle",
    "Verif.C97_ports_matter"
   ],
   "note": ""
  },
  {
   "property": "C98",
   "status": "proved",
   "theorems": [
    "Verif.C98_component",
    "Verif.C98_node",
    "Verif.C98_runs",
    "Verif.C98_evolved",
    "Verif.C98_life"
   ],
   "note": ""
  },
  {
   "property": "C99",
   "status": "proved",
   "theorems": [
    "Verif.C99_continuous",
    "Verif.C99_scores",
    "Verif.C99_grown",
    "Verif.C99_square_filter"
   ],
   "note": ""
  },
  {
   "property": "C100",
   "status": "proved",
   "theorems": [
    "Verif.C100_inner",
    "Verif.C100_uniform",
    "Verif.C100_bare",
    "Verif.C100_hessian",
    "Verif.C100_refused",
    "Verif.C100_complete"
   ],
   "note": ""
  },
  {
   "property": "C101",
   "status": "proved",
   "theorems": [
    "Verif.C101_operators",
    "Verif.C101_equal_weights",
    "Verif.C101_schedule",
    "Verif.C101_unknown",
    "Verif.C101_frozen",
    "Verif.C101_repo",
    "Verif.C101_crossover"
   ],
   "note": ""
  },
  {
   "property": "C102",
   "status": "proved",
   "theorems": [
    "Verif.C102_parents",
    "Verif.C102_chain",
    "Verif.C102_hall",
    "Verif.C102_inherited",
    "Verif.C102_finishes"
   ],
   "note": ""
  },
  {
   "property": "C103",
   "status": "proved",
   "theorems": [
    "Verif.C103_optimised",
    "Verif.C103_optimises",
    "Verif.C103_run",
    "Verif.C103_lineage",
    "Verif.C103_runs",
    "Verif.C103_finishes",
    "Verif.C103_preferential_exceeds"
   ],
   "note": ""
  },
  {
   "property": "C104",
   "status": "proved",
   "theorems": [
    "Verif.C104_calls",
    "Verif.C104_steps",
    "Verif.C104_sizes",
    "Verif.C104_finishes",
    "Verif.C104_stuck",
    "Verif.C104_run_lost"
   ],
   "note": ""
  },
  {
   "property": "C105",
   "status": "proved",
   "theorems": [
    "Verif.C105_minimum",
    "Verif.C105_sphere",
    "Verif.C105_unusable",
    "Verif.C105_gaussian",
    "Verif.C105_mesh",
    "Verif.C105_ackley_kink"
   ],
   "note": ""
  },
  {
   "property": "C106",
   "status": "proved",
   "theorems": [
    "Verif.C106_written",
    "Verif.C106_frame",
    "Verif.C106_off",
    "Verif.C106_outcome",
    "Verif.C106_stops",
    "Verif.C106_stream",
    "Verif.C106_seeded",
    "Verif.C106_tuning"
   ],
   "note": ""
  },
  {
   "property": "C107",
   "status": "proved",
   "theorems": [
    "Verif.C107_diameter",
    "Verif.C107_classes",
    "Verif.C107_labels",
    "Verif.C107_edit_triangle",
    "Verif.C107_edit_diameter",
    "Verif.C107_edit_classes",
    "Verif.C107_edit_defect",
    "Verif.C107_vector_triangle",
    "Verif.C107_vector_unbounded"
   ],
   "note": ""
  },
  {
   "property": "C108",
   "status": "proved",
   "theorems": [
    "Verif.C108_screen",
    "Verif.C108_nested",
    "Verif.C108_files",
    "Verif.C108_flush",
    "Verif.C108_failed",
    "Verif.C108_reentered",
    "Verif.C108_crossed",
    "Verif.C108_unstarted"
   ],
   "note": ""
  },
  {
   "property": "C109",
   "status": "proved",
   "theorems": [
    "Verif.C109_batch",
    "Verif.C109_schedule",
    "Verif.C109_switch",
    "Verif.C109_driver",
    "Verif.C109_seed",
    "Verif.C109_store",
    "Verif.C109_noise",
    "Verif.C109_noise_findings"
   ],
   "note": ""
  },
  {
   "property": "C110",
   "status": "proved",
   "theorems": [
    "Verif.C110_accepted",
    "Verif.C110_last",
    "Verif.C110_order",
    "Verif.C110_verbose",
    "Verif.C110_rejected",
    "Verif.C110_selection"
   ],
   "note": ""
  },
  {
   "property": "C111",
   "status": "proved",
   "theorems": [
    "Verif.C111_folders",
    "Verif.C111_results",
    "Verif.C111_blocked",
    "Verif.C111_stops",
    "Verif.C111_plan",
    "Verif.C111_plan_elitism",
    "Verif.C111_plan_selection",
    "Verif.C111_same_class",
    "Verif.C111_log"
   ],
   "note": ""
  },
  {
   "property": "C112",
   "status": "proved",
   "theorems": [
    "Verif.C112_made",
    "Verif.C112_history",
    "Verif.C112_consistent",
    "Verif.C112_same_axes",
    "Verif.C112_refused",
    "Verif.C112_sources",
    "Verif.C112_any_shape"
   ],
   "note": ""
  },
  {
   "property": "C113",
   "status": "proved",
   "theorems": [
    "Verif.C113_average",
    "Verif.C113_complete",
    "Verif.C113_short",
    "Verif.C113_folder",
    "Verif.C113_folder_exponent",
    "Verif.C113_shown",
    "Verif.C113_missing",
    "Verif.C113_pipeline",
    "Verif.C113_runs"
   ],
   "note": ""
  },
  {
   "property": "C114",
   "status": "proved",
   "theorems": [
    "Verif.C114_interpolation",
    "Verif.C114_figure",
    "Verif.C114_range",
    "Verif.C114_settled",
    "Verif.C114_missing",
    "Verif.C114_rises"
   ],
   "note": ""
  },
  {
   "property": "C115",
   "status": "proved",
   "theorems": [
    "Verif.C115_labels",
    "Verif.C115_drawing",
    "Verif.C115_two_sources",
    "Verif.C115_figure",
    "Verif.C115_score",
    "Verif.C115_no_target",
    "Verif.C115_failure"
   ],
   "note": ""
  },
  {
   "property": "C116",
   "status": "proved",
   "theorems": [
    "Verif.C116_reports",
    "Verif.C116_scores_start",
    "Verif.C116_no_better",
    "Verif.C116_wrong_loss"
   ],
   "note": ""
  },
  {
   "property": "C117",
   "status": "proved",
   "theorems": [
    "Verif.C117_law",
    "Verif.C117_float",
    "Verif.C117_step",
    "Verif.C117_step_outside",
    "Verif.C117_int",
    "Verif.C117_int_outside",
    "Verif.C117_int_one_way",
    "Verif.C117_drift",
    "Verif.C117_refused"
   ],
   "note": ""
  },
  {
   "property": "C118",
   "status": "proved",
   "theorems": [
    "Verif.C118_same",
    "Verif.C118_edges",
    "Verif.C118_falls",
    "Verif.C118_display"
   ],
   "note": ""
  },
  {
   "property": "C119",
   "status": "proved",
   "theorems": [
    "Verif.C119_adds",
    "Verif.C119_phase",
    "Verif.C119_idle",
    "Verif.C119_fresh",
    "Verif.C119_class",
    "Verif.C119_off",
    "Verif.C119_holds",
    "Verif.C119_back",
    "Verif.C119_deaf",
    "Verif.C119_apart",
    "Verif.C119_copy"
   ],
   "note": ""
  },
  {
   "property": "C120",
   "status": "proved",
   "theorems": [
    "Verif.C120_level",
    "Verif.C120_contributions",
    "Verif.C120_beat",
    "Verif.C120_noisy",
    "Verif.C120_same",
    "Verif.C120_noise",
    "Verif.C120_sources",
    "Verif.C120_sources_fresh"
   ],
   "note": ""
  },
  {
   "property": "C121",
   "status": "proved",
   "theorems": [
    "Verif.C121_copies",
    "Verif.C121_rate",
    "Verif.C121_perfect",
    "Verif.C121_wrong_reference",
    "Verif.C121_late"
   ],
   "note": ""
  },
  {
   "property": "C122",
   "status": "proved",
   "theorems": [
    "Verif.C122_free",
    "Verif.C122_extract",
    "Verif.C122_clean",
    "Verif.C122_needed",
    "Verif.C122_complete",
    "Verif.C122_deeper"
   ],
   "note": ""
  },
  {
   "property": "C123",
   "status": "proved",
   "theorems": [
    "Verif.C123_rhythm",
    "Verif.C123_lines",
    "Verif.C123_steady",
    "Verif.C123_off_beat",
    "Verif.C123_no_waveform",
    "Verif.C123_phase_only",
    "Verif.C123_spread",
    "Verif.C123_window"
   ],
   "note": ""
  },
  {
   "property": "C124",
   "status": "proved",
   "theorems": [
    "Verif.C124_response",
    "Verif.C124_flat",
    "Verif.C124_fsr",
    "Verif.C124_passive",
    "Verif.C124_score",
    "Verif.C124_no_filter"
   ],
   "note": ""
  },
  {
   "property": "C125",
   "status": "proved",
   "theorems": [
    "Verif.C125_shifter",
    "Verif.C125_fringe",
    "Verif.C125_score",
    "Verif.C125_readings",
    "Verif.C125_bound",
    "Verif.C125_blind"
   ],
   "note": ""
  },
  {
   "property": "C126",
   "status": "proved",
   "theorems": [
    "Verif.C126_transfer",
    "Verif.C126_phase",
    "Verif.C126_shift",
    "Verif.C126_gain",
    "Verif.C126_knobs"
   ],
   "note": ""
  },
  {
   "property": "C127",
   "status": "proved",
   "theorems": [
    "Verif.C127_unbranched",
    "Verif.C127_start",
    "Verif.C127_no_joins",
    "Verif.C127_shifters",
    "Verif.C127_blind",
    "Verif.C127_parallel_needed"
   ],
   "note": ""
  },
  {
   "property": "C128",
   "status": "proved",
   "theorems": [
    "Verif.C128_prints_one",
    "Verif.C128_script",
    "Verif.C128_not_the_score"
   ],
   "note": ""
  },
  {
   "property": "C129",
   "status": "proved",
   "theorems": [
    "Verif.C129_sum",
    "Verif.C129_meter",
    "Verif.C129_bound",
    "Verif.C129_some_way",
    "Verif.C129_single",
    "Verif.C129_factors",
    "Verif.C129_pattern"
   ],
   "note": ""
  },
  {
   "property": "C130",
   "status": "proved",
   "theorems": [
    "Verif.C130_response",
    "Verif.C130_score",
    "Verif.C130_same_delay",
    "Verif.C130_two_ways"
   ],
   "note": ""
  },
  {
   "property": "C131",
   "status": "proved",
   "theorems": [
    "Verif.C131_ga",
    "Verif.C131_lbfgs_ga",
    "Verif.C131_bounds_ignored",
    "Verif.C131_ga_runs",
    "Verif.C131_independent",
    "Verif.RepeatsExample.C131_not_independent"
   ],
   "note": ""
  },
  {
   "property": "C132",
   "status": "proved",
   "theorems": [
    "Verif.C132_edge",
    "Verif.C132_period",
    "Verif.C132_tolerance",
    "Verif.C132_imprecise"
   ],
   "note": ""
  },
  {
   "property": "C133",
   "status": "proved",
   "theorems": [
    "Verif.C133_values",
    "Verif.C133_few",
    "Verif.C133_copies"
   ],
   "note": ""
  },
  {
   "property": "C134",
   "status": "proved",
   "theorems": [
    "Verif.C134_reach",
    "Verif.C134_jump",
    "Verif.C134_method"
   ],
   "note": ""
  }
 ]
}
