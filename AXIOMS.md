# Axioms used by each property theorem

Generated by `tools/gen_axioms.py` from the output of `#print axioms`.

| theorem | axioms |
|---|---|
| `Verif.C01_evolution_acyclic` | propext, Classical.choice, Quot.sound |
| `Verif.C02_on_light_path` | propext, Classical.choice, Quot.sound |
| `Verif.C02_single_terminals` | propext, Classical.choice, Quot.sound |
| `Verif.C03_terminals_and_protected_survive` | propext, Classical.choice, Quot.sound |
| `Verif.C04_add_series_effect` | propext, Classical.choice, Quot.sound |
| `Verif.C04_add_series_reach` | propext, Classical.choice, Quot.sound |
| `Verif.C05_offered_pairs_legal` | propext, Classical.choice, Quot.sound |
| `Verif.C05_all_legal_pairs_offered` | propext, Quot.sound |
| `Verif.C05_add_parallel_effect` | propext, Classical.choice, Quot.sound |
| `Verif.C06_remove_effect` | propext, Classical.choice, Quot.sound |
| `Verif.C06_remove_reach` | propext, Classical.choice, Quot.sound |
| `Verif.C06_merge_can_add_paths` | propext, Classical.choice, Quot.sound |
| `Verif.C07_swap_effect` | propext, Classical.choice, Quot.sound |
| `Verif.C07_swap_draw_exists` | propext, Classical.choice, Quot.sound |
| `Verif.C08_size_accounting` | propext, Classical.choice, Quot.sound |
| `Verif.C08_loops` | propext, Classical.choice, Quot.sound |
| `Verif.C09_wellformed` | propext, Classical.choice, Quot.sound |
| `Verif.C09_add_edge_never_overwrites` | propext, Classical.choice, Quot.sound |
| `Verif.C10_limits_nonmerging` | propext, Classical.choice, Quot.sound |
| `Verif.C10_merge_degrees` | propext, Classical.choice, Quot.sound |
| `Verif.C10_limits_step` | propext, Classical.choice, Quot.sound |
| `Verif.C10_limits_history` | propext, Classical.choice, Quot.sound |
| `Verif.C10_merge_breaks_limit` | propext, Classical.choice, Quot.sound |
| `Verif.C11_lookup_uniform` | propext, Classical.choice, Quot.sound |
| `Verif.C12_sampling_legal` | propext, Classical.choice, Quot.sound |
| `Verif.C12_evolve_never_fails` | propext, Classical.choice, Quot.sound |
| `Verif.C12_run_is_history` | propext, Classical.choice, Quot.sound |
| `Verif.C13_operator_weights` | propext, Classical.choice, Quot.sound |
| `Verif.C14_tournament` | propext, Classical.choice, Quot.sound |
| `Verif.C14_single_removal` | propext, Classical.choice, Quot.sound |
| `Verif.C15_schedule` | propext, Classical.choice, Quot.sound |
| `Verif.C15_schedule_ends` | propext, Classical.choice, Quot.sound |
| `Verif.C15_removal_share_monotone` | propext, Classical.choice, Quot.sound |
| `Verif.C15_late_generation_raises` | propext, Classical.choice, Quot.sound |
| `Verif.C16_lineage_chain` | propext, Quot.sound |
| `Verif.C17_propagate_total` | propext, Classical.choice, Quot.sound |
| `Verif.C17_propagate_acyclic` | propext, Classical.choice, Quot.sound |
| `Verif.C18_solves_dataflow` | propext, Classical.choice, Quot.sound |
| `Verif.C18_order_independent` | propext, Classical.choice, Quot.sound |
| `Verif.C19_topological_order` | propext, Classical.choice, Quot.sound |
| `Verif.C20_output_switch` | propext, Classical.choice, Quot.sound |
| `Verif.C20_noise_difference` | propext, Classical.choice, Quot.sound |
| `Verif.C20_switch_unchanged` | propext, Classical.choice, Quot.sound |
| `Verif.C20_switch_stuck_on_error` | propext |
| `Verif.C21_layout_longest_path` | propext, Classical.choice, Quot.sound |
| `Verif.C21_edges_point_forward` | propext, Classical.choice, Quot.sound |
| `Verif.C21_layout_diverges` | propext, Classical.choice, Quot.sound |
| `Verif.C22_lists_aligned` | propext, Classical.choice, Quot.sound |
| `Verif.C22_same_order` | propext, Classical.choice, Quot.sound |
| `Verif.C22_fails_iff` | propext, Classical.choice, Quot.sound |
| `Verif.C23_distribute_extracted` | propext, Classical.choice, Quot.sound |
| `Verif.C23_extract_distributed` | propext, Classical.choice, Quot.sound |
| `Verif.C23_only_unlocked_change` | propext, Classical.choice, Quot.sound |
| `Verif.C24_uniform_within` | propext, Classical.choice, Quot.sound |
| `Verif.C24_uniform_total` | propext, Classical.choice, Quot.sound |
| `Verif.C24_sampled_graph` | propext, Classical.choice, Quot.sound |
| `Verif.C24_triangle_unusable` | propext, Classical.choice, Quot.sound |
| `Verif.C24_step_leaves_bounds` | propext, Classical.choice, Quot.sound |
| `Verif.C25_size_and_order` | propext, Quot.sound |
| `Verif.C26_best_ever` | propext, Quot.sound |
| `Verif.C26_never_worse` | propext, Quot.sound |
| `Verif.C27_rejected` | propext, Classical.choice, Quot.sound |
| `Verif.C27_inserted` | propext, Quot.sound |
| `Verif.C27_exhaustive` | propext, Classical.choice, Quot.sound |
| `Verif.C27_similar_pair_possible` | propext, Quot.sound |
| `Verif.C28_selection_keeps_best` | propext, Classical.choice, Quot.sound |
| `Verif.C28_selection_shared` | propext, Classical.choice, Quot.sound |
| `Verif.C29_tournament` | propext, Classical.choice, Quot.sound |
| `Verif.C29_tournament_total` | propext, Classical.choice, Quot.sound |
| `Verif.C29_roulette` | propext, Classical.choice, Quot.sound |
| `Verif.C29_roulette_chances` | propext, Classical.choice, Quot.sound |
| `Verif.C29_roulette_pick` | propext, Classical.choice, Quot.sound |
| `Verif.C29_roulette_total` | propext, Classical.choice, Quot.sound |
| `Verif.C29_elite` | propext, Classical.choice, Quot.sound |
| `Verif.C30_no_elite` | propext, Classical.choice, Quot.sound |
| `Verif.C30_elite_aborts` | propext, Classical.choice, Quot.sound |
| `Verif.C30_elite_runtime_error` | propext, Classical.choice, Quot.sound |
| `Verif.C31_partition` | propext, Classical.choice, Quot.sound |
| `Verif.C32_species_radius` | propext, Classical.choice, Quot.sound |
| `Verif.C32_end_of_run` | propext, Classical.choice, Quot.sound |
| `Verif.C33_threshold_range` | propext, Classical.choice, Quot.sound |
| `Verif.C33_threshold_moves` | propext, Classical.choice, Quot.sound |
| `Verif.C34_share_reversed` | propext, Classical.choice, Quot.sound |
| `Verif.C34_unscored_member_raises` | propext, Quot.sound |
| `Verif.C35_ga` | propext, Classical.choice, Quot.sound |
| `Verif.C35_never_worse` | propext, Classical.choice, Quot.sound |
| `Verif.C35_errors` | propext, Classical.choice, Quot.sound |
| `Verif.C35_total` | propext, Classical.choice, Quot.sound |
| `Verif.C36_crossover_single` | propext, Classical.choice, Quot.sound |
| `Verif.C36_crossover_double` | propext, Classical.choice, Quot.sound |
| `Verif.C36_mutation` | propext, Classical.choice, Quot.sound |
| `Verif.C36_constraints_inherited` | propext, Classical.choice, Quot.sound |
| `Verif.C37_adam` | propext, Classical.choice, Quot.sound |
| `Verif.C37_no_iterations` | propext, Quot.sound |
| `Verif.C37_total` | propext, Classical.choice, Quot.sound |
| `Verif.C37_unclipped_example` | propext, Classical.choice, Quot.sound |
| `Verif.C37_batches_differ` | propext, Classical.choice, Quot.sound |
| `Verif.C38_frequency_bands` | propext, Classical.choice, Quot.sound |
| `Verif.C38_frequency_edges` | propext, Classical.choice, Quot.sound |
| `Verif.C38_frequency_passive` | propext, Classical.choice, Quot.sound |
| `Verif.C38_frequency_gain` | propext, Classical.choice, Quot.sound |
| `Verif.C38_attributes` | propext, Quot.sound |
| `Verif.C38_sum_one` | propext, Quot.sound |
| `Verif.C38_default_equal` | propext, Classical.choice, Quot.sound |
| `Verif.C38_nonneg` | propext, Classical.choice, Quot.sound |
| `Verif.C38_defaults_in_bounds` | propext, Classical.choice, Quot.sound |
| `Verif.C38_bounds` | propext, Classical.choice, Quot.sound |
| `Verif.C38_bands` | propext, Classical.choice, Quot.sound |
| `Verif.C38_power` | propext, Classical.choice, Quot.sound |
| `Verif.C38_not_conserving` | propext, Classical.choice, Quot.sound |
| `Verif.C39_off` | propext |
| `Verif.C39_never_stale` | propext, Quot.sound |
| `Verif.C39_repeatable` | propext, Quot.sound |
| `Verif.C39_switch` | propext |
| `Verif.C39_resample` | propext, Quot.sound |
| `Verif.C39_sources` | propext, Quot.sound |
| `Verif.C39_seeded` | propext, Quot.sound |
| `Verif.C39_resample_twice` | propext, Quot.sound |
| `Verif.C39_settings` | propext |
| `Verif.C39_phase` | propext, Quot.sound |
| `Verif.C39_direct_set_fails` | none |
| `Verif.C40_current` | propext |
| `Verif.C40_stale_after_change` | propext, Quot.sound |
| `Verif.C41_nicknames` | propext, Classical.choice, Quot.sound |
| `Verif.C41_round_trip` | propext, Classical.choice, Quot.sound |
| `Verif.C41_wrong_count` | propext, Classical.choice, Quot.sound |
| `Verif.C41_keys_lost` | propext, Classical.choice, Quot.sound |
| `Verif.C42_rows` | propext, Classical.choice, Quot.sound |
| `Verif.C42_two` | propext, Classical.choice, Quot.sound |
| `Verif.C42_partial_lost` | propext, Classical.choice, Quot.sound |
| `Verif.C42_third_overwrites` | propext, Classical.choice, Quot.sound |
| `Verif.C42_algorithms` | propext, Quot.sound |
| `Verif.C42_errors` | propext, Quot.sound |
| `Verif.C42_needs_start` | propext, Classical.choice, Quot.sound |
| `Verif.C43_parameters` | propext, Classical.choice, Quot.sound |
| `Verif.C43_edges` | propext, Classical.choice, Quot.sound |
| `Verif.C43_default_and_errors` | propext, Quot.sound |
| `Verif.C43_normalize` | propext, Classical.choice, Quot.sound |
| `Verif.C44_descriptors` | propext, Classical.choice, Quot.sound |
| `Verif.C44_labels` | propext |
| `Verif.C44_no_label` | propext, Quot.sound |
| `Verif.C44_vector` | propext, Classical.choice, Quot.sound |
| `Verif.C44_vector_unregistered` | propext, Classical.choice, Quot.sound |
| `Verif.C44_vector_exceeds_one` | propext, Classical.choice, Quot.sound |
| `Verif.C44_edit_exact` | propext, Classical.choice, Quot.sound |
| `Verif.C44_edit_values` | propext, Classical.choice, Quot.sound |
| `Verif.C45_set_get` | propext, Classical.choice, Quot.sound |
| `Verif.C45_unknown_name` | propext, Classical.choice, Quot.sound |
| `Verif.C45_constructor` | propext, Classical.choice, Quot.sound |
| `Verif.C45_constructor_list` | propext, Classical.choice, Quot.sound |
| `Verif.C45_defaults_aliased` | propext, Classical.choice, Quot.sound |
| `Verif.C46_objective_repeatable` | propext, Classical.choice, Quot.sound |
| `Verif.C47_candidates` | propext, Classical.choice, Quot.sound |
| `Verif.C47_unknown` | propext |
| `Verif.C48_best_of_run` | propext, Classical.choice, Quot.sound |
| `Verif.C48_single_generation` | propext, Classical.choice, Quot.sound |
| `Verif.C48_start_not_counted` | propext, Classical.choice, Quot.sound |
| `Verif.C49_random_with_speciation` | propext, Classical.choice, Quot.sound |
| `Verif.C49_type_error` | propext, Classical.choice, Quot.sound |
| `Verif.C49_random_run` | propext, Classical.choice, Quot.sound |
| `Verif.C50_preferential` | propext, Classical.choice, Quot.sound |
| `Verif.C50_sibling_overwritten` | propext, Classical.choice, Quot.sound |
| `Verif.C50_unscored` | propext, Classical.choice, Quot.sound |
| `Verif.C51_pressure` | propext, Classical.choice, Quot.sound |
| `Verif.C51_reversed` | propext, Classical.choice, Quot.sound |
| `Verif.C51_never_stops` | propext, Classical.choice, Quot.sound |
| `Verif.C51_diverges` | propext, Classical.choice, Quot.sound |
| `Verif.C52_result` | propext, Classical.choice, Quot.sound |
| `Verif.C52_bounds` | propext, Classical.choice, Quot.sound |
| `Verif.C52_unknown` | propext, Classical.choice, Quot.sound |
| `Verif.C53_axes` | propext, Classical.choice, Quot.sound |
| `Verif.C53_central` | propext, Classical.choice, Quot.sound |
| `Verif.C53_not_fft_axis` | propext, Classical.choice, Quot.sound |
| `Verif.C53_shifted_axis` | propext, Classical.choice, Quot.sound |
| `Verif.C53_window_setter` | propext, Classical.choice, Quot.sound |
| `Verif.C54_inverse` | propext, Classical.choice, Quot.sound |
| `Verif.C54_linear` | propext, Classical.choice, Quot.sound |
| `Verif.C54_parseval` | propext, Classical.choice, Quot.sound |
| `Verif.C54_shifts` | propext, Quot.sound |
| `Verif.C54_psd` | propext, Classical.choice, Quot.sound |
| `Verif.C55_fiber` | propext, Classical.choice, Quot.sound |
| `Verif.C55_delay_line` | propext, Classical.choice, Quot.sound |
| `Verif.C55_phase_shifter` | propext, Classical.choice, Quot.sound |
| `Verif.C56_phase_modulator` | propext, Classical.choice, Quot.sound |
| `Verif.C56_phase_law` | propext, Classical.choice, Quot.sound |
| `Verif.C56_intensity_modulator` | propext, Classical.choice, Quot.sound |
| `Verif.C57_attenuator` | propext, Classical.choice, Quot.sound |
| `Verif.C58_square_filter` | propext, Classical.choice, Quot.sound |
| `Verif.C59_mask_padded` | propext, Classical.choice, Quot.sound |
| `Verif.C59_mask_cut` | propext, Classical.choice, Quot.sound |
| `Verif.C59_wave_shaper` | propext, Classical.choice, Quot.sound |
| `Verif.C59_flat` | propext, Classical.choice, Quot.sound |
| `Verif.C59_response` | propext, Classical.choice, Quot.sound |
| `Verif.C60_waveform` | propext, Classical.choice, Quot.sound |
| `Verif.C60_filter_even` | propext, Classical.choice, Quot.sound |
| `Verif.C60_filter_odd` | propext, Classical.choice, Quot.sound |
| `Verif.C61_small_signal` | propext, Classical.choice, Quot.sound |
| `Verif.C61_output_limit` | propext, Classical.choice, Quot.sound |
| `Verif.C61_no_saturation` | propext, Classical.choice, Quot.sound |
| `Verif.C64_every_delay` | propext, Classical.choice, Quot.sound |
| `Verif.C64_no_other_delay` | propext, Classical.choice, Quot.sound |
| `Verif.C64_last_delay_unused` | propext, Classical.choice, Quot.sound |
| `Verif.C64_split_delay` | propext, Classical.choice, Quot.sound |
| `Verif.C64_loss_amplifies` | propext, Classical.choice, Quot.sound |
| `Verif.C62_photocurrent` | propext, Classical.choice, Quot.sound |
| `Verif.C62_voltage_bounded` | propext, Classical.choice, Quot.sound |
| `Verif.C63_cw` | propext, Classical.choice, Quot.sound |
| `Verif.C63_pulse_train` | propext, Classical.choice, Quot.sound |
| `Verif.C63_pulse_width` | propext, Classical.choice, Quot.sound |
| `Verif.C63_pulsed_laser` | propext, Classical.choice, Quot.sound |
| `Verif.C63_noisy_signal` | propext, Classical.choice, Quot.sound |
| `Verif.C63_impulse` | propext, Classical.choice, Quot.sound |
| `Verif.C65_butterworth` | propext, Classical.choice, Quot.sound |
| `Verif.C65_refused` | propext, Classical.choice, Quot.sound |
| `Verif.C65_exp_square` | propext, Classical.choice, Quot.sound |
| `Verif.C65_real_odd` | propext, Classical.choice, Quot.sound |
| `Verif.C65_even_not_real` | propext, Classical.choice, Quot.sound |
| `Verif.C66_osnr` | propext, Classical.choice, Quot.sound |
| `Verif.C66_absolute` | propext, Classical.choice, Quot.sound |
| `Verif.C66_shot` | propext, Classical.choice, Quot.sound |
| `Verif.C66_linewidth` | propext, Classical.choice, Quot.sound |
| `Verif.C66_linewidth_odd` | propext, Classical.choice, Quot.sound |
| `Verif.C66_superposition` | propext, Classical.choice, Quot.sound |
| `Verif.C66_order` | propext, Classical.choice, Quot.sound |
| `Verif.C66_linewidth_spectrum` | propext, Classical.choice, Quot.sound |
| `Verif.C66_filtered` | propext, Classical.choice, Quot.sound |
| `Verif.C66_ase` | propext, Classical.choice, Quot.sound |
| `Verif.C67_distances` | propext, Classical.choice, Quot.sound |
| `Verif.C67_noise_suppression` | propext, Classical.choice, Quot.sound |
| `Verif.C67_cosine_range` | propext, Classical.choice, Quot.sound |
| `Verif.C67_cosine_not_cosine` | propext, Classical.choice, Quot.sound |
| `Verif.C67_not_gate_reversed` | propext, Classical.choice, Quot.sound |
| `Verif.C67_filter_design` | propext, Classical.choice, Quot.sound |
| `Verif.C67_mask_precedence` | propext, Classical.choice, Quot.sound |
| `Verif.C67_time_lens` | propext, Classical.choice, Quot.sound |
| `Verif.C67_time_lens_visibility` | propext, Classical.choice, Quot.sound |
| `Verif.C67_mean_square` | propext, Classical.choice, Quot.sound |
| `Verif.C68_harmonic_index` | propext, Classical.choice, Quot.sound |
| `Verif.C68_index_off_by_one` | propext, Classical.choice, Quot.sound |
| `Verif.C68_index_error` | propext, Classical.choice, Quot.sound |
| `Verif.C68_pulse_delay_invariant` | propext, Classical.choice, Quot.sound |
| `Verif.C68_pulse_target_perfect` | propext, Classical.choice, Quot.sound |
| `Verif.C68_rf_wrong_way` | propext, Classical.choice, Quot.sound |
| `Verif.C68_rf_delay_penalised` | propext, Classical.choice, Quot.sound |
| `Verif.C69_global_phase` | propext, Classical.choice, Quot.sound |
| `Verif.C69_time_shift` | propext, Classical.choice, Quot.sound |
| `Verif.C69_power_scaling` | propext, Classical.choice, Quot.sound |
| `Verif.C69_superposition` | propext, Classical.choice, Quot.sound |
| `Verif.C69_laser_power` | propext, Classical.choice, Quot.sound |
| `Verif.C70_listed_history` | propext, Classical.choice, Quot.sound |
| `Verif.C70_update_graph` | propext, Classical.choice, Quot.sound |
| `Verif.C70_copy` | propext, Classical.choice, Quot.sound |
| `Verif.C70_copy_simulates` | propext, Classical.choice, Quot.sound |
| `Verif.C70_copy_faithful_iff` | propext, Classical.choice, Quot.sound |
| `Verif.C70_start_point` | propext, Classical.choice, Quot.sound |
| `Verif.C70_copy_output_changes` | propext, Classical.choice, Quot.sound |
| `Verif.C70_init_graph` | propext, Classical.choice, Quot.sound |
| `Verif.C70_save_hof` | propext, Classical.choice, Quot.sound |
| `Verif.C71_gains` | propext, Classical.choice, Quot.sound |
| `Verif.C71_energy_budget` | propext, Classical.choice, Quot.sound |
| `Verif.C71_passive_bound` | propext, Classical.choice, Quot.sound |
| `Verif.C71_no_gain` | propext, Classical.choice, Quot.sound |
| `Verif.C71_combiner_gains` | propext, Classical.choice, Quot.sound |
| `Verif.C72_plain` | propext, Classical.choice, Quot.sound |
| `Verif.C72_snr` | propext, Classical.choice, Quot.sound |
| `Verif.C72_leaves` | propext, Classical.choice, Quot.sound |
| `Verif.C72_fresh` | propext, Classical.choice, Quot.sound |
| `Verif.C72_sequence` | propext, Classical.choice, Quot.sound |
| `Verif.C72_stored` | propext, Classical.choice, Quot.sound |
| `Verif.C72_undrawn_class` | propext, Classical.choice, Quot.sound |
| `Verif.C72_phase_runtime` | propext, Classical.choice, Quot.sound |
| `Verif.C72_phase` | propext, Classical.choice, Quot.sound |
| `Verif.C72_second_foreign` | propext, Classical.choice, Quot.sound |
| `Verif.C72_second` | propext, Classical.choice, Quot.sound |
| `Verif.C72_time_lens` | propext, Classical.choice, Quot.sound |
| `Verif.C72_findings` | propext, Classical.choice, Quot.sound |
| `Verif.C73_complete` | propext, Classical.choice, Quot.sound |
| `Verif.C73_own` | propext, Classical.choice, Quot.sound |
| `Verif.C73_copy` | propext, Classical.choice, Quot.sound |
| `Verif.C73_copy_blind` | propext, Classical.choice, Quot.sound |
| `Verif.C73_stale` | propext, Classical.choice, Quot.sound |
| `Verif.C73_wrong_design` | propext, Classical.choice, Quot.sound |
| `Verif.C74_units` | propext, Classical.choice, Quot.sound |
| `Verif.C74_unit_free` | propext, Classical.choice, Quot.sound |
| `Verif.C74_aligned` | propext, Classical.choice, Quot.sound |
| `Verif.C74_shape` | propext, Classical.choice, Quot.sound |
| `Verif.C74_second_order` | propext, Classical.choice, Quot.sound |
| `Verif.C74_lha` | propext, Classical.choice, Quot.sound |
| `Verif.C74_zero_imprecision` | propext, Classical.choice, Quot.sound |
| `Verif.C74_run_depends_on_units` | propext, Classical.choice, Quot.sound |
| `Verif.C74_plot_rows` | propext, Classical.choice, Quot.sound |
| `Verif.C75_sheets` | propext, Classical.choice, Quot.sound |
| `Verif.C75_shipped` | propext, Classical.choice, Quot.sound |
| `Verif.C75_ready` | propext, Classical.choice, Quot.sound |
| `Verif.C75_placed` | propext, Classical.choice, Quot.sound |
| `Verif.C75_imprecisions` | propext, Classical.choice, Quot.sound |
| `Verif.C75_evolve` | propext, Classical.choice, Quot.sound |
| `Verif.C75_update` | propext, Classical.choice, Quot.sound |
| `Verif.C75_optimised` | propext, Classical.choice, Quot.sound |
| `Verif.C75_guard` | propext, Classical.choice, Quot.sound |
| `Verif.C75_tables_off` | propext, Classical.choice, Quot.sound |
| `Verif.C76_library` | propext, Classical.choice, Quot.sound |
| `Verif.C76_runs` | propext, Classical.choice, Quot.sound |
| `Verif.C76_evolver` | propext, Classical.choice, Quot.sound |
| `Verif.C76_snapshot` | propext, Classical.choice, Quot.sound |
| `Verif.C76_custom` | propext, Classical.choice, Quot.sound |
| `Verif.C76_by_name` | propext, Classical.choice, Quot.sound |
| `Verif.C76_reload` | propext, Classical.choice, Quot.sound |
| `Verif.C76_vector` | propext, Classical.choice, Quot.sound |
| `Verif.C76_tables` | propext, Quot.sound |
| `Verif.C76_fits` | propext, Classical.choice, Quot.sound |
| `Verif.C76_shipped` | propext, Classical.choice, Quot.sound |
| `Verif.C76_any_custom` | propext, Classical.choice, Quot.sound |
| `Verif.C76_foreign` | propext, Classical.choice, Quot.sound |
| `Verif.C76_vector_terminals` | propext, Classical.choice, Quot.sound |
| `Verif.C76_surprises` | propext |
| `Verif.C77_kept` | propext, Classical.choice, Quot.sound |
| `Verif.C77_save_object` | propext, Classical.choice, Quot.sound |
| `Verif.C77_save_json` | propext, Classical.choice, Quot.sound |
| `Verif.C77_load` | propext, Quot.sound |
| `Verif.C77_back` | propext, Classical.choice, Quot.sound |
| `Verif.C77_folder` | propext, Classical.choice, Quot.sound |
| `Verif.C77_identifier_needed` | propext, Classical.choice, Quot.sound |
| `Verif.C77_pointers` | propext, Classical.choice, Quot.sound |
| `Verif.C77_ids` | propext, Classical.choice, Quot.sound |
| `Verif.C77_not_unique` | propext, Classical.choice, Quot.sound |
| `Verif.C77_metadata` | propext, Classical.choice, Quot.sound |
| `Verif.C77_run` | propext, Classical.choice, Quot.sound |
| `Verif.C77_run_new_folder` | propext, Classical.choice, Quot.sound |
| `Verif.C77_run_no_folder` | propext, Classical.choice, Quot.sound |
| `Verif.C77_surprises` | propext, Classical.choice, Quot.sound |
| `Verif.C78_same` | propext, Classical.choice, Quot.sound |
| `Verif.C78_shown` | propext, Classical.choice, Quot.sound |
| `Verif.C78_score` | propext, Classical.choice, Quot.sound |
| `Verif.C78_names` | propext, Classical.choice, Quot.sound |
| `Verif.C78_names_unique` | propext, Classical.choice, Quot.sound |
| `Verif.C78_table` | propext, Classical.choice, Quot.sound |
| `Verif.C78_open` | propext, Classical.choice, Quot.sound |
| `Verif.C78_open_fails` | propext, Classical.choice, Quot.sound |
| `Verif.C78_run` | propext, Classical.choice, Quot.sound |
| `Verif.C79_delay_line` | propext, Classical.choice, Quot.sound |
| `Verif.C79_earlier` | propext, Classical.choice, Quot.sound |
| `Verif.C79_fibre_beat` | propext, Classical.choice, Quot.sound |
| `Verif.C79_talbot_odd` | propext, Classical.choice, Quot.sound |
| `Verif.C79_talbot_even` | propext, Classical.choice, Quot.sound |
| `Verif.C79_quarter_talbot` | propext, Classical.choice, Quot.sound |
| `Verif.C79_rate_doubling` | propext, Classical.choice, Quot.sound |
| `Verif.C80_rf_shapes` | propext, Classical.choice, Quot.sound |
| `Verif.C80_rf_range_period` | propext, Classical.choice, Quot.sound |
| `Verif.C80_rf_reachable` | propext, Classical.choice, Quot.sound |
| `Verif.C80_filter_bands` | propext, Classical.choice, Quot.sound |
| `Verif.C80_filter_goal` | propext, Classical.choice, Quot.sound |
| `Verif.C80_filter_blind` | propext, Classical.choice, Quot.sound |
| `Verif.C80_lens_fringes` | propext, Classical.choice, Quot.sound |
| `Verif.C80_pulse_new` | propext, Classical.choice, Quot.sound |
| `Verif.C80_noise_new` | propext, Classical.choice, Quot.sound |
| `Verif.C80_pulse_goal` | propext, Classical.choice, Quot.sound |
| `Verif.C80_not_gate` | propext, Classical.choice, Quot.sound |
| `Verif.C80_lens_goal` | propext, Classical.choice, Quot.sound |
| `Verif.C81_signal_current` | propext, Quot.sound |
| `Verif.C81_photodiode_assigned` | propext, Classical.choice, Quot.sound |
| `Verif.C81_built` | propext, Quot.sound |
| `Verif.C81_short_list` | propext, Quot.sound |
| `Verif.C81_filter_fixed` | propext, Classical.choice, Quot.sound |
| `Verif.C81_photodiode_built` | propext, Quot.sound |
| `Verif.C81_noise_built` | propext, Classical.choice, Quot.sound |
| `Verif.C81_noise_assigned` | propext, Quot.sound |
| `Verif.C81_noise_amplifier` | propext, Quot.sound |
| `Verif.C81_signal_named` | propext, Classical.choice, Quot.sound |
| `Verif.C81_noise_named` | propext, Classical.choice, Quot.sound |
| `Verif.C81_noise_named_built` | propext, Classical.choice, Quot.sound |
| `Verif.C81_write_outside` | propext, Quot.sound |
| `Verif.C81_write` | propext, Quot.sound |
| `Verif.C81_by_name` | propext, Classical.choice, Quot.sound |
| `Verif.C81_setter_keeps_reference` | propext, Classical.choice, Quot.sound |
| `Verif.C81_shared` | propext, Quot.sound |
| `Verif.C81_private` | propext, Quot.sound |
| `Verif.C81_own_list` | propext, Quot.sound |
| `Verif.C81_copy` | propext, Quot.sound |
| `Verif.C81_by_name_built` | propext, Classical.choice, Quot.sound |
| `Verif.C81_defaults` | propext, Quot.sound |
| `Verif.C81_points` | propext, Classical.choice, Quot.sound |
| `Verif.C81_tuning` | propext, Quot.sound |
| `Verif.C81_stale` | propext, Quot.sound |
| `Verif.C82_spectrum` | propext, Classical.choice, Quot.sound |
| `Verif.C82_power` | propext, Classical.choice, Quot.sound |
| `Verif.C82_latest` | propext, Classical.choice, Quot.sound |
| `Verif.C82_louder` | propext, Classical.choice, Quot.sound |
| `Verif.C82_quieter_with_gain` | propext, Classical.choice, Quot.sound |
| `Verif.C82_fine_grid` | propext, Classical.choice, Quot.sound |
| `Verif.C82_mean` | propext, Classical.choice, Quot.sound |
| `Verif.C83_adam_never_returns` | propext, Quot.sound |
| `Verif.C83_ga_never_returns` | propext, Classical.choice, Quot.sound |
| `Verif.C83_adam_key_error` | propext, Quot.sound |
| `Verif.C83_ga_type_error` | propext, Classical.choice, Quot.sound |
| `Verif.C83_one_parameter` | propext, Classical.choice, Quot.sound |
| `Verif.C83_no_generations` | propext, Classical.choice, Quot.sound |
| `Verif.C83_unsorted` | propext, Classical.choice, Quot.sound |
| `Verif.C83_switch` | propext, Classical.choice, Quot.sound |
| `Verif.C83_mutation` | propext, Classical.choice, Quot.sound |
| `Verif.C83_mended` | propext, Classical.choice, Quot.sound |
| `Verif.C83_mended_adam` | propext, Classical.choice, Quot.sound |
| `Verif.C83_stale_scores` | propext, Classical.choice, Quot.sound |
| `Verif.C83_one_individual` | propext, Classical.choice, Quot.sound |
| `Verif.C83_wrong_size` | propext, Quot.sound |
| `Verif.C83_no_renewal` | propext, Classical.choice, Quot.sound |
| `Verif.C83_batch` | propext, Quot.sound |
| `Verif.C83_converged` | propext, Quot.sound |
| `Verif.C83_adam_noise` | propext, Classical.choice, Quot.sound |
| `Verif.C83_ga_noise` | propext, Classical.choice, Quot.sound |
| `Verif.C83_adam_log` | propext, Classical.choice, Quot.sound |
| `Verif.C84_estimate` | propext, Classical.choice, Quot.sound |
| `Verif.C84_exact` | propext, Classical.choice, Quot.sound |
| `Verif.C84_between` | propext, Classical.choice, Quot.sound |
| `Verif.C84_order` | propext, Classical.choice, Quot.sound |
| `Verif.C84_scale` | propext, Classical.choice, Quot.sound |
| `Verif.C84_nearest` | propext, Classical.choice, Quot.sound |
| `Verif.C84_refused` | propext, Classical.choice, Quot.sound |
| `Verif.C84_mean_spectrum` | propext, Classical.choice, Quot.sound |
| `Verif.C85_correlation` | propext, Classical.choice, Quot.sound |
| `Verif.C85_stationary` | propext, Classical.choice, Quot.sound |
| `Verif.C85_coherence` | propext, Classical.choice, Quot.sound |
| `Verif.C85_width` | propext, Classical.choice, Quot.sound |
| `Verif.C86_scaled` | propext, Classical.choice, Quot.sound |
| `Verif.C86_scaled_error` | propext, Classical.choice, Quot.sound |
| `Verif.C86_curve` | propext, Classical.choice, Quot.sound |
| `Verif.C86_all_drawn` | propext, Classical.choice, Quot.sound |
| `Verif.C86_ends` | propext, Classical.choice, Quot.sound |
| `Verif.C86_between` | propext, Classical.choice, Quot.sound |
| `Verif.C86_parallel` | propext, Classical.choice, Quot.sound |
| `Verif.C86_selection` | propext, Classical.choice, Quot.sound |
| `Verif.C86_lines` | propext, Classical.choice, Quot.sound |
| `Verif.C86_load_keeps` | propext |
| `Verif.C86_failed_load` | propext, Classical.choice, Quot.sound |
| `Verif.C86_stale_selection` | propext, Classical.choice, Quot.sound |
| `Verif.C86_rows` | propext, Quot.sound |
| `Verif.C86_heatmap` | propext, Classical.choice, Quot.sound |
| `Verif.C86_labels` | propext |
| `Verif.C86_eigen_bars` | propext, Classical.choice, Quot.sound |
| `Verif.C86_eigen_cut` | propext, Classical.choice, Quot.sound |
| `Verif.C87_rules` | propext |
| `Verif.C87_setup` | propext, Quot.sound |
| `Verif.C87_setup_else` | propext, Quot.sound |
| `Verif.C87_marked` | propext, Classical.choice, Quot.sound |
| `Verif.C87_inherited` | propext, Classical.choice, Quot.sound |
| `Verif.C87_marked_start` | propext, Classical.choice, Quot.sound |
| `Verif.C87_species_are_labels` | propext, Classical.choice, Quot.sound |
| `Verif.C87_leftover_manager` | propext, Classical.choice, Quot.sound |
| `Verif.C87_checked` | propext, Classical.choice, Quot.sound |
| `Verif.C88_field` | propext, Classical.choice, Quot.sound |
| `Verif.C88_phases` | propext, Classical.choice, Quot.sound |
| `Verif.C88_two_arms` | propext, Classical.choice, Quot.sound |
| `Verif.C88_balanced` | propext, Classical.choice, Quot.sound |
| `Verif.C88_passive` | propext, Classical.choice, Quot.sound |
| `Verif.C88_dark` | propext, Classical.choice, Quot.sound |
| `Verif.C88_bright` | propext, Classical.choice, Quot.sound |
| `Verif.C88_delays` | propext, Classical.choice, Quot.sound |
| `Verif.C88_comb_filter` | propext, Classical.choice, Quot.sound |
| `Verif.C88_score` | propext, Classical.choice, Quot.sound |
| `Verif.C88_score_range` | propext, Classical.choice, Quot.sound |
| `Verif.C88_second_score` | propext, Classical.choice, Quot.sound |
| `Verif.C89_same_light` | propext, Classical.choice, Quot.sound |
| `Verif.C89_whole_system` | propext, Classical.choice, Quot.sound |
| `Verif.C89_modulators` | propext, Classical.choice, Quot.sound |
| `Verif.C89_filters` | propext, Classical.choice, Quot.sound |
| `Verif.C89_amplifier` | propext, Classical.choice, Quot.sound |
| `Verif.C89_delay_mark` | propext, Classical.choice, Quot.sound |
| `Verif.C89_delay_response` | propext, Classical.choice, Quot.sound |
| `Verif.C89_delay_outside` | propext, Classical.choice, Quot.sound |
| `Verif.C89_split_delay` | propext, Classical.choice, Quot.sound |
| `Verif.C89_hidden_stage` | propext, Classical.choice, Quot.sound |
| `Verif.C89_history` | propext, Classical.choice, Quot.sound |
| `Verif.C90_prefix` | propext, Classical.choice, Quot.sound |
| `Verif.C90_scaled` | propext, Classical.choice, Quot.sound |
| `Verif.C90_other_axes` | propext, Classical.choice, Quot.sound |
| `Verif.C90_twice` | propext, Classical.choice, Quot.sound |
| `Verif.C90_compare` | propext, Classical.choice, Quot.sound |
| `Verif.C90_compare_noise` | propext, Classical.choice, Quot.sound |
| `Verif.C90_compare_squared` | propext, Classical.choice, Quot.sound |
| `Verif.C90_inspect_state` | propext, Classical.choice, Quot.sound |
| `Verif.C91_state` | propext, Classical.choice, Quot.sound |
| `Verif.C91_value` | propext, Classical.choice, Quot.sound |
| `Verif.C91_objective` | propext, Classical.choice, Quot.sound |
| `Verif.C91_score_noise` | propext, Classical.choice, Quot.sound |
| `Verif.C91_score_not_gate` | propext, Classical.choice, Quot.sound |
| `Verif.C91_score_filter` | propext, Classical.choice, Quot.sound |
| `Verif.C91_score_waveform` | propext, Classical.choice, Quot.sound |
| `Verif.C91_score_pulse` | propext, Classical.choice, Quot.sound |
| `Verif.C91_gradient` | propext, Classical.choice, Quot.sound |
| `Verif.C91_hessian` | propext, Classical.choice, Quot.sound |
| `Verif.C91_best_in_box` | propext, Classical.choice, Quot.sound |
| `Verif.C91_curvature` | propext, Classical.choice, Quot.sound |
| `Verif.C91_free_wheeling` | propext, Classical.choice, Quot.sound |
| `Verif.C91_splitter_edge` | propext, Classical.choice, Quot.sound |
| `Verif.C91_filter_kink` | propext, Classical.choice, Quot.sound |
| `Verif.C91_optimum_exists` | propext, Classical.choice, Quot.sound |
| `Verif.C92_upstream` | propext, Classical.choice, Quot.sound |
| `Verif.C92_components` | propext, Classical.choice, Quot.sound |
| `Verif.C92_swap_edge` | propext, Classical.choice, Quot.sound |
| `Verif.C92_swap_node` | propext, Classical.choice, Quot.sound |
| `Verif.C92_parallel` | propext, Classical.choice, Quot.sound |
| `Verif.C92_remove_parallel` | propext, Classical.choice, Quot.sound |
| `Verif.C92_insert` | propext, Classical.choice, Quot.sound |
| `Verif.C92_insert_ports` | propext, Classical.choice, Quot.sound |
| `Verif.C92_insert_exchanges` | propext, Classical.choice, Quot.sound |
| `Verif.C92_insensitive` | propext, Classical.choice, Quot.sound |
| `Verif.C92_insensitive_sink` | propext, Classical.choice, Quot.sound |
| `Verif.C93_parallel_undo` | propext, Classical.choice, Quot.sound |
| `Verif.C93_swap_undo` | propext, Classical.choice, Quot.sound |
| `Verif.C93_series_undo` | propext, Classical.choice, Quot.sound |
| `Verif.C93_take_down` | propext, Classical.choice, Quot.sound |
| `Verif.C93_take_down_to` | propext, Classical.choice, Quot.sound |
| `Verif.C93_build_chain` | propext, Classical.choice, Quot.sound |
| `Verif.C93_reach_chain` | propext, Classical.choice, Quot.sound |
| `Verif.C94_rewrite` | propext, Classical.choice, Quot.sound |
| `Verif.C94_states` | propext, Classical.choice, Quot.sound |
| `Verif.C94_score` | propext, Classical.choice, Quot.sound |
| `Verif.C94_exchange` | propext, Classical.choice, Quot.sound |
| `Verif.C94_merge` | propext, Classical.choice, Quot.sound |
| `Verif.C94_swallowed` | propext, Classical.choice, Quot.sound |
| `Verif.C94_modulator_delay` | propext, Classical.choice, Quot.sound |
| `Verif.C94_attenuate_first` | propext, Classical.choice, Quot.sound |
| `Verif.C94_only_the_sum` | propext, Classical.choice, Quot.sound |
| `Verif.C94_hidden` | propext, Classical.choice, Quot.sound |
| `Verif.C95_dark` | propext, Classical.choice, Quot.sound |
| `Verif.C95_states` | propext, Classical.choice, Quot.sound |
| `Verif.C95_unlit` | propext, Classical.choice, Quot.sound |
| `Verif.C95_free_wheeling` | propext, Classical.choice, Quot.sound |
| `Verif.C95_prune` | propext, Classical.choice, Quot.sound |
| `Verif.C96_chance` | propext, Classical.choice, Quot.sound |
| `Verif.C96_offered` | propext, Classical.choice, Quot.sound |
| `Verif.C96_one_direction` | propext, Classical.choice, Quot.sound |
| `Verif.C96_reach` | propext, Classical.choice, Quot.sound |
| `Verif.C96_bound` | propext, Classical.choice, Quot.sound |
| `Verif.C96_weighted` | propext, Classical.choice, Quot.sound |
| `Verif.C96_sensitive_half` | propext, Classical.choice, Quot.sound |
| `Verif.C96_never_drawn` | propext, Classical.choice, Quot.sound |
| `Verif.C97_insert` | propext, Classical.choice, Quot.sound |
| `Verif.C97_score` | propext, Classical.choice, Quot.sound |
| `Verif.C97_line` | propext, Classical.choice, Quot.sound |
| `Verif.C97_idle` | propext, Classical.choice, Quot.sound |
| `Verif.C97_keeps` | propext, Classical.choice, Quot.sound |
| `Verif.C97_grown` | propext, Classical.choice, Quot.sound |
| `Verif.C97_never_idle` | propext, Classical.choice, Quot.sound |
| `Verif.C97_ports_matter` | propext, Classical.choice, Quot.sound |
| `Verif.C98_component` | propext, Classical.choice, Quot.sound |
| `Verif.C98_node` | propext, Classical.choice, Quot.sound |
| `Verif.C98_runs` | propext, Classical.choice, Quot.sound |
| `Verif.C98_evolved` | propext, Classical.choice, Quot.sound |
| `Verif.C98_life` | propext, Classical.choice, Quot.sound |
| `Verif.C99_continuous` | propext, Classical.choice, Quot.sound |
| `Verif.C99_scores` | propext, Classical.choice, Quot.sound |
| `Verif.C99_grown` | propext, Classical.choice, Quot.sound |
| `Verif.C99_square_filter` | propext, Classical.choice, Quot.sound |
| `Verif.C100_inner` | propext, Classical.choice, Quot.sound |
| `Verif.C100_uniform` | propext, Classical.choice, Quot.sound |
| `Verif.C100_bare` | propext, Classical.choice, Quot.sound |
| `Verif.C100_hessian` | propext, Classical.choice, Quot.sound |
| `Verif.C100_refused` | propext, Classical.choice, Quot.sound |
| `Verif.C100_complete` | propext, Classical.choice, Quot.sound |
| `Verif.C101_operators` | propext, Classical.choice, Quot.sound |
| `Verif.C101_equal_weights` | propext, Classical.choice, Quot.sound |
| `Verif.C101_schedule` | propext, Classical.choice, Quot.sound |
| `Verif.C101_unknown` | propext, Classical.choice, Quot.sound |
| `Verif.C101_frozen` | propext, Classical.choice, Quot.sound |
| `Verif.C101_repo` | propext, Classical.choice, Quot.sound |
| `Verif.C101_crossover` | propext, Classical.choice, Quot.sound |
| `Verif.C102_parents` | propext, Classical.choice, Quot.sound |
| `Verif.C102_chain` | propext, Classical.choice, Quot.sound |
| `Verif.C102_hall` | propext, Classical.choice, Quot.sound |
| `Verif.C102_inherited` | propext, Classical.choice, Quot.sound |
| `Verif.C102_finishes` | propext, Classical.choice, Quot.sound |
| `Verif.C103_optimised` | propext, Classical.choice, Quot.sound |
| `Verif.C103_optimises` | propext, Classical.choice, Quot.sound |
| `Verif.C103_run` | propext, Classical.choice, Quot.sound |
| `Verif.C103_lineage` | propext, Classical.choice, Quot.sound |
| `Verif.C103_runs` | propext, Classical.choice, Quot.sound |
| `Verif.C103_finishes` | propext, Classical.choice, Quot.sound |
| `Verif.C103_preferential_exceeds` | propext, Classical.choice, Quot.sound |
| `Verif.C104_calls` | propext, Classical.choice, Quot.sound |
| `Verif.C104_steps` | propext, Classical.choice, Quot.sound |
| `Verif.C104_sizes` | propext, Classical.choice, Quot.sound |
| `Verif.C104_finishes` | propext, Classical.choice, Quot.sound |
| `Verif.C104_stuck` | propext, Classical.choice, Quot.sound |
| `Verif.C104_run_lost` | propext, Classical.choice, Quot.sound |
| `Verif.C105_minimum` | propext, Classical.choice, Quot.sound |
| `Verif.C105_sphere` | propext, Classical.choice, Quot.sound |
| `Verif.C105_unusable` | propext, Classical.choice, Quot.sound |
| `Verif.C105_gaussian` | propext, Classical.choice, Quot.sound |
| `Verif.C105_mesh` | propext, Classical.choice, Quot.sound |
| `Verif.C105_ackley_kink` | propext, Classical.choice, Quot.sound |
| `Verif.C106_written` | propext, Quot.sound |
| `Verif.C106_frame` | propext, Quot.sound |
| `Verif.C106_off` | propext, Quot.sound |
| `Verif.C106_outcome` | propext, Quot.sound |
| `Verif.C106_stops` | propext, Quot.sound |
| `Verif.C106_stream` | propext, Quot.sound |
| `Verif.C106_seeded` | propext, Quot.sound |
| `Verif.C106_tuning` | propext, Classical.choice, Quot.sound |
| `Verif.C107_diameter` | propext, Classical.choice, Quot.sound |
| `Verif.C107_classes` | propext, Classical.choice, Quot.sound |
| `Verif.C107_labels` | propext, Classical.choice, Quot.sound |
| `Verif.C107_edit_triangle` | propext, Classical.choice, Quot.sound |
| `Verif.C107_edit_diameter` | propext, Classical.choice, Quot.sound |
| `Verif.C107_edit_classes` | propext, Classical.choice, Quot.sound |
| `Verif.C107_edit_defect` | propext, Classical.choice, Quot.sound |
| `Verif.C107_vector_triangle` | propext, Classical.choice, Quot.sound |
| `Verif.C107_vector_unbounded` | propext, Classical.choice, Quot.sound |
| `Verif.C108_screen` | propext |
| `Verif.C108_nested` | propext, Classical.choice, Quot.sound |
| `Verif.C108_files` | propext, Classical.choice, Quot.sound |
| `Verif.C108_flush` | propext, Classical.choice, Quot.sound |
| `Verif.C108_failed` | propext, Classical.choice, Quot.sound |
| `Verif.C108_reentered` | propext, Classical.choice, Quot.sound |
| `Verif.C108_crossed` | propext, Classical.choice, Quot.sound |
| `Verif.C108_unstarted` | propext |
| `Verif.C109_batch` | propext, Classical.choice, Quot.sound |
| `Verif.C109_schedule` | propext, Quot.sound |
| `Verif.C109_switch` | propext, Classical.choice, Quot.sound |
| `Verif.C109_driver` | propext |
| `Verif.C109_seed` | propext, Classical.choice, Quot.sound |
| `Verif.C109_store` | propext, Quot.sound |
| `Verif.C109_noise` | propext, Classical.choice, Quot.sound |
| `Verif.C109_noise_findings` | propext, Classical.choice, Quot.sound |
| `Verif.C110_accepted` | propext, Classical.choice, Quot.sound |
| `Verif.C110_last` | propext, Classical.choice, Quot.sound |
| `Verif.C110_order` | propext, Classical.choice, Quot.sound |
| `Verif.C110_verbose` | propext, Classical.choice, Quot.sound |
| `Verif.C110_rejected` | propext, Classical.choice, Quot.sound |
| `Verif.C110_selection` | propext, Classical.choice, Quot.sound |
| `Verif.C111_folders` | propext, Classical.choice, Quot.sound |
| `Verif.C111_results` | propext, Classical.choice, Quot.sound |
| `Verif.C111_blocked` | propext, Classical.choice, Quot.sound |
| `Verif.C111_stops` | propext, Classical.choice, Quot.sound |
| `Verif.C111_plan` | propext, Classical.choice, Quot.sound |
| `Verif.C111_plan_elitism` | propext, Classical.choice, Quot.sound |
| `Verif.C111_plan_selection` | propext, Classical.choice, Quot.sound |
| `Verif.C111_same_class` | propext, Classical.choice, Quot.sound |
| `Verif.C111_log` | propext, Classical.choice, Quot.sound |
| `Verif.C112_made` | propext, Classical.choice, Quot.sound |
| `Verif.C112_history` | propext, Classical.choice, Quot.sound |
| `Verif.C112_consistent` | propext, Classical.choice, Quot.sound |
| `Verif.C112_same_axes` | propext, Classical.choice, Quot.sound |
| `Verif.C112_refused` | propext, Classical.choice, Quot.sound |
| `Verif.C112_sources` | propext, Classical.choice, Quot.sound |
| `Verif.C112_any_shape` | propext, Classical.choice, Quot.sound |
| `Verif.C113_average` | propext, Classical.choice, Quot.sound |
| `Verif.C113_complete` | propext, Classical.choice, Quot.sound |
| `Verif.C113_short` | propext, Classical.choice, Quot.sound |
| `Verif.C113_folder` | propext, Classical.choice, Quot.sound |
| `Verif.C113_folder_exponent` | propext, Classical.choice, Quot.sound |
| `Verif.C113_shown` | propext, Classical.choice, Quot.sound |
| `Verif.C113_missing` | propext, Classical.choice, Quot.sound |
| `Verif.C113_pipeline` | propext, Classical.choice, Quot.sound |
| `Verif.C113_runs` | propext, Classical.choice, Quot.sound |
| `Verif.C114_interpolation` | propext, Classical.choice, Quot.sound |
| `Verif.C114_figure` | propext, Classical.choice, Quot.sound |
| `Verif.C114_range` | propext, Classical.choice, Quot.sound |
| `Verif.C114_settled` | propext, Classical.choice, Quot.sound |
| `Verif.C114_missing` | propext, Quot.sound |
| `Verif.C114_rises` | propext, Classical.choice, Quot.sound |
| `Verif.C115_labels` | propext, Classical.choice, Quot.sound |
| `Verif.C115_drawing` | propext, Classical.choice, Quot.sound |
| `Verif.C115_two_sources` | propext, Classical.choice, Quot.sound |
| `Verif.C115_figure` | propext, Classical.choice, Quot.sound |
| `Verif.C115_score` | propext, Classical.choice, Quot.sound |
| `Verif.C115_no_target` | propext, Classical.choice, Quot.sound |
| `Verif.C115_failure` | propext, Classical.choice, Quot.sound |
| `Verif.C116_reports` | propext, Classical.choice, Quot.sound |
| `Verif.C116_scores_start` | propext, Classical.choice, Quot.sound |
| `Verif.C116_no_better` | propext, Classical.choice, Quot.sound |
| `Verif.C116_wrong_loss` | propext, Classical.choice, Quot.sound |
| `Verif.C117_law` | propext, Classical.choice, Quot.sound |
| `Verif.C117_float` | propext, Classical.choice, Quot.sound |
| `Verif.C117_step` | propext, Classical.choice, Quot.sound |
| `Verif.C117_step_outside` | propext, Classical.choice, Quot.sound |
| `Verif.C117_int` | propext, Classical.choice, Quot.sound |
| `Verif.C117_int_outside` | propext, Classical.choice, Quot.sound |
| `Verif.C117_int_one_way` | propext, Classical.choice, Quot.sound |
| `Verif.C117_drift` | propext, Classical.choice, Quot.sound |
| `Verif.C117_refused` | propext, Classical.choice, Quot.sound |
| `Verif.C118_same` | propext, Classical.choice, Quot.sound |
| `Verif.C118_edges` | propext, Classical.choice, Quot.sound |
| `Verif.C118_falls` | propext, Classical.choice, Quot.sound |
| `Verif.C118_display` | propext, Classical.choice, Quot.sound |
| `Verif.C119_adds` | propext, Classical.choice, Quot.sound |
| `Verif.C119_phase` | propext, Classical.choice, Quot.sound |
| `Verif.C119_idle` | propext, Classical.choice, Quot.sound |
| `Verif.C119_fresh` | propext, Classical.choice, Quot.sound |
| `Verif.C119_class` | propext |
| `Verif.C119_off` | propext, Classical.choice, Quot.sound |
| `Verif.C119_holds` | propext, Classical.choice, Quot.sound |
| `Verif.C119_back` | propext, Classical.choice, Quot.sound |
| `Verif.C119_deaf` | propext, Classical.choice, Quot.sound |
| `Verif.C119_apart` | propext, Classical.choice, Quot.sound |
| `Verif.C119_copy` | propext, Classical.choice, Quot.sound |
| `Verif.C120_level` | propext, Classical.choice, Quot.sound |
| `Verif.C120_contributions` | propext, Classical.choice, Quot.sound |
| `Verif.C120_beat` | propext, Classical.choice, Quot.sound |
| `Verif.C120_noisy` | propext, Classical.choice, Quot.sound |
| `Verif.C120_same` | propext, Classical.choice, Quot.sound |
| `Verif.C120_noise` | propext, Classical.choice, Quot.sound |
| `Verif.C120_sources` | propext, Classical.choice, Quot.sound |
| `Verif.C120_sources_fresh` | propext, Classical.choice, Quot.sound |
| `Verif.C121_copies` | propext, Classical.choice, Quot.sound |
| `Verif.C121_rate` | propext, Classical.choice, Quot.sound |
| `Verif.C121_perfect` | propext, Classical.choice, Quot.sound |
| `Verif.C121_wrong_reference` | propext, Classical.choice, Quot.sound |
| `Verif.C121_late` | propext, Classical.choice, Quot.sound |
| `Verif.C122_free` | propext, Quot.sound |
| `Verif.C122_extract` | propext, Classical.choice, Quot.sound |
| `Verif.C122_clean` | propext, Classical.choice, Quot.sound |
| `Verif.C122_needed` | propext, Classical.choice, Quot.sound |
| `Verif.C122_complete` | propext, Classical.choice, Quot.sound |
| `Verif.C122_deeper` | propext, Classical.choice, Quot.sound |
| `Verif.C123_rhythm` | propext, Classical.choice, Quot.sound |
| `Verif.C123_lines` | propext, Classical.choice, Quot.sound |
| `Verif.C123_steady` | propext, Classical.choice, Quot.sound |
| `Verif.C123_off_beat` | propext, Classical.choice, Quot.sound |
| `Verif.C123_no_waveform` | propext, Classical.choice, Quot.sound |
| `Verif.C123_phase_only` | propext, Classical.choice, Quot.sound |
| `Verif.C123_spread` | propext, Classical.choice, Quot.sound |
| `Verif.C123_window` | propext, Classical.choice, Quot.sound |
| `Verif.C124_response` | propext, Classical.choice, Quot.sound |
| `Verif.C124_flat` | propext, Classical.choice, Quot.sound |
| `Verif.C124_fsr` | propext, Classical.choice, Quot.sound |
| `Verif.C124_passive` | propext, Classical.choice, Quot.sound |
| `Verif.C124_score` | propext, Classical.choice, Quot.sound |
| `Verif.C124_no_filter` | propext, Classical.choice, Quot.sound |
| `Verif.C125_shifter` | propext, Classical.choice, Quot.sound |
| `Verif.C125_fringe` | propext, Classical.choice, Quot.sound |
| `Verif.C125_score` | propext, Classical.choice, Quot.sound |
| `Verif.C125_readings` | propext, Classical.choice, Quot.sound |
| `Verif.C125_bound` | propext, Classical.choice, Quot.sound |
| `Verif.C125_blind` | propext, Classical.choice, Quot.sound |
| `Verif.C126_transfer` | propext, Classical.choice, Quot.sound |
| `Verif.C126_phase` | propext, Classical.choice, Quot.sound |
| `Verif.C126_shift` | propext, Classical.choice, Quot.sound |
| `Verif.C126_gain` | propext, Classical.choice, Quot.sound |
| `Verif.C126_knobs` | propext, Classical.choice, Quot.sound |
| `Verif.C127_unbranched` | propext, Classical.choice, Quot.sound |
| `Verif.C127_start` | propext, Classical.choice, Quot.sound |
| `Verif.C127_no_joins` | propext, Classical.choice, Quot.sound |
| `Verif.C127_shifters` | propext, Classical.choice, Quot.sound |
| `Verif.C127_blind` | propext, Classical.choice, Quot.sound |
| `Verif.C127_parallel_needed` | propext, Classical.choice, Quot.sound |
| `Verif.C128_prints_one` | propext, Classical.choice, Quot.sound |
| `Verif.C128_script` | propext, Classical.choice, Quot.sound |
| `Verif.C128_not_the_score` | propext, Classical.choice, Quot.sound |
| `Verif.C129_sum` | propext, Classical.choice, Quot.sound |
| `Verif.C129_meter` | propext, Classical.choice, Quot.sound |
| `Verif.C129_bound` | propext, Classical.choice, Quot.sound |
| `Verif.C129_some_way` | propext, Classical.choice, Quot.sound |
| `Verif.C129_single` | propext, Classical.choice, Quot.sound |
| `Verif.C129_factors` | propext, Classical.choice, Quot.sound |
| `Verif.C129_pattern` | propext, Classical.choice, Quot.sound |
| `Verif.C130_response` | propext, Classical.choice, Quot.sound |
| `Verif.C130_score` | propext, Classical.choice, Quot.sound |
| `Verif.C130_same_delay` | propext, Classical.choice, Quot.sound |
| `Verif.C130_two_ways` | propext, Classical.choice, Quot.sound |
| `Verif.C131_ga` | propext, Classical.choice, Quot.sound |
| `Verif.C131_lbfgs_ga` | propext, Classical.choice, Quot.sound |
| `Verif.C131_bounds_ignored` | propext, Classical.choice, Quot.sound |
| `Verif.C131_ga_runs` | propext, Classical.choice, Quot.sound |
| `Verif.C131_independent` | propext, Classical.choice, Quot.sound |
| `Verif.RepeatsExample.C131_not_independent` | propext, Classical.choice, Quot.sound |
| `Verif.C132_edge` | propext, Classical.choice, Quot.sound |
| `Verif.C132_period` | propext, Classical.choice, Quot.sound |
| `Verif.C132_tolerance` | propext, Classical.choice, Quot.sound |
| `Verif.C132_imprecise` | propext, Classical.choice, Quot.sound |
| `Verif.C133_values` | propext, Classical.choice, Quot.sound |
| `Verif.C133_few` | propext, Classical.choice, Quot.sound |
| `Verif.C133_copies` | propext, Classical.choice, Quot.sound |
| `Verif.C134_reach` | propext, Classical.choice, Quot.sound |
| `Verif.C134_jump` | propext, Classical.choice, Quot.sound |
| `Verif.C134_method` | propext, Classical.choice, Quot.sound |
