'Splr.C01_sat_answers_are_models' depends on axioms: [propext, Classical.choice, Quot.sound]
'Splr.C02_unsat_answers_are_correct' depends on axioms: [propext, Classical.choice, Quot.sound]
'Splr.C02_add_clause_contradiction' depends on axioms: [propext, Classical.choice, Quot.sound]
'Splr.C02_add_assignment_contradiction' depends on axioms: [propext, Classical.choice, Quot.sound]
'Splr.C03_learnt_clause_is_implied' depends on axioms: [propext, Classical.choice, Quot.sound]
'Splr.C03_handled_conflict_keeps_models' depends on axioms: [propext, Classical.choice, Quot.sound]
'Splr.C03_contradiction' depends on axioms: [propext, Classical.choice, Quot.sound]
'Splr.C03_root_conflict' depends on axioms: [propext, Classical.choice, Quot.sound]
'Splr.C04_learnt_clause_is_asserting' depends on axioms: [propext, Classical.choice, Quot.sound]
'Splr.C05_recursive_minimisation' depends on axioms: [propext, Classical.choice, Quot.sound]
'Splr.C05_binary_minimisation' depends on axioms: [propext, Classical.choice, Quot.sound]
'Splr.C05_minimisation_is_sound' depends on axioms: [propext, Classical.choice, Quot.sound]
'Splr.C06_propagation_is_sound' depends on axioms: [propext, Classical.choice, Quot.sound]
'Splr.C06_sandbox_propagation_is_sound' depends on axioms: [propext, Classical.choice, Quot.sound]
'Splr.C07_propagation_complete_partial' depends on axioms: [propext, Classical.choice, Quot.sound]
'Splr.C07_without_eliminator' depends on axioms: [propext, Classical.choice, Quot.sound]
'Splr.C07_clean_clauses_partial' depends on axioms: [propext, Classical.choice, Quot.sound]
'Splr.C07_sandbox_complete_partial' depends on axioms: [propext, Classical.choice, Quot.sound]
'Splr.C07_sandbox_clean_partial' depends on axioms: [propext, Classical.choice, Quot.sound]
'Splr.C07_violated' depends on axioms: [propext, Quot.sound]
'Splr.C07_violated_by_the_loops' depends on axioms: [propext, Quot.sound]
'Splr.C08_conflicts_are_real' depends on axioms: [propext, Classical.choice, Quot.sound]
'Splr.C08_sandbox_conflicts_are_real' depends on axioms: [propext, Classical.choice, Quot.sound]
'Splr.C09_watch_lists' depends on axioms: [propext, Classical.choice, Quot.sound]
'Splr.C09_binary_links' depends on axioms: [propext, Classical.choice, Quot.sound]
'Splr.C09_no_dead' depends on axioms: [propext, Classical.choice, Quot.sound]
'Splr.C09_clause_shape' depends on axioms: [propext, Classical.choice, Quot.sound]
'Splr.C10_trail_and_assignment_agree' depends on axioms: [propext, Classical.choice, Quot.sound]
'Splr.C11_backtracking_restores' depends on axioms: [propext, Classical.choice, Quot.sound]
'Splr.Heap.C12_permutation' depends on axioms: [propext, Classical.choice, Quot.sound]
'Splr.Heap.C12_no_panic' depends on axioms: [propext, Classical.choice, Quot.sound]
'Splr.Heap.C12_root_of_empty' does not depend on any axioms
'Splr.Heap.C13_first_root_partial' depends on axioms: [propext, Classical.choice, Quot.sound]
'Splr.Heap.C13_violated' does not depend on any axioms
'Splr.C14_choosing_succeeds' depends on axioms: [propext, Classical.choice, Quot.sound]
'Splr.C14_decisions' depends on axioms: [propext, Classical.choice, Quot.sound]
'Splr.C15_elimination' depends on axioms: [propext, Classical.choice, Quot.sound]
'Splr.C15_equisatisfiable' depends on axioms: [propext, Classical.choice, Quot.sound]
'Splr.C16_models_extend' depends on axioms: [propext, Classical.choice, Quot.sound]
'Splr.C17_subsumption' depends on axioms: [propext, Classical.choice, Quot.sound]
'Splr.C17_strengthening' depends on axioms: [propext, Classical.choice, Quot.sound]
'Splr.C18_vivification' depends on axioms: [propext, Classical.choice, Quot.sound]
'Splr.C19_reduce' depends on axioms: [propext, Classical.choice, Quot.sound]
'Splr.C19_binary_kept' depends on axioms: [propext, Classical.choice, Quot.sound]
'Splr.C19_reduction_in_the_search' depends on axioms: [propext, Classical.choice, Quot.sound]
'Splr.C20_fresh_id' depends on axioms: [propext, Classical.choice, Quot.sound]
'Splr.C20_no_resurrection' depends on axioms: [propext, Classical.choice, Quot.sound]
'Splr.C20_freelist' depends on axioms: [propext, Classical.choice, Quot.sound]
'Splr.C21_lookup' depends on axioms: [propext, Classical.choice, Quot.sound]
'Splr.C21_unique' depends on axioms: [propext, Classical.choice, Quot.sound]
'Splr.C21_add_present' depends on axioms: [propext, Classical.choice, Quot.sound]
'Splr.C22_statistics_partial' depends on axioms: [propext, Classical.choice, Quot.sound]
'Splr.C22_drift' depends on axioms: [propext, Classical.choice, Quot.sound]
'Splr.C22_violated' depends on axioms: [propext]
'Splr.C22_underflow' depends on axioms: [propext, Quot.sound]
'Splr.Cert.C23_roundtrip' depends on axioms: [propext, Classical.choice, Quot.sound]
'Splr.Cert.C23_injective' depends on axioms: [propext, Classical.choice, Quot.sound]
'Splr.Cert.C23_empty_deletion' depends on axioms: [propext, Quot.sound]
'Splr.C24_certificate_is_verified' depends on axioms: [propext, Classical.choice, Quot.sound]
'Splr.C25_add_clause' depends on axioms: [propext, Classical.choice, Quot.sound]
'Splr.C25_add_assignment' depends on axioms: [propext, Classical.choice, Quot.sound]
'Splr.C25_line' depends on axioms: [propext, Classical.choice, Quot.sound]
'Splr.C25_rejected' depends on axioms: [propext, Classical.choice, Quot.sound]
'Splr.C26_add_clause_errors' depends on axioms: [propext, Classical.choice, Quot.sound]
'Splr.C26_add_assignment_errors' depends on axioms: [propext, Classical.choice, Quot.sound]
'Splr.C26_rejection_is_right' depends on axioms: [propext, Classical.choice, Quot.sound]
'Splr.C27_add_var_partial' depends on axioms: [propext, Classical.choice, Quot.sound]
'Splr.C27_violated' depends on axioms: [propext, Quot.sound]
'Splr.C27_violated_by_the_loops' depends on axioms: [propext, Quot.sound]
'Splr.Enc.C28_roundtrip' depends on axioms: [propext, Quot.sound]
'Splr.Enc.C28_denotes' depends on axioms: [propext, Classical.choice, Quot.sound]
'Splr.Enc.C28_injective' depends on axioms: [propext, Quot.sound]
'Splr.Enc.C28_not' depends on axioms: [propext, Classical.choice, Quot.sound]
'Splr.Enc.C28_not_denotes' depends on axioms: [propext, Classical.choice, Quot.sound]
'Splr.Enc.C28_not_not' depends on axioms: [propext, Quot.sound]
'Splr.Enc.C28_ofPair' depends on axioms: [propext, Classical.choice, Quot.sound]
'Splr.Enc.C28_denote_injective' depends on axioms: [propext, Classical.choice, Quot.sound]
'Splr.Enc.C28_order' depends on axioms: [propext, Classical.choice, Quot.sound]
'Splr.Enc.C28_min_is_zero' depends on axioms: [propext]
'Splr.Enc.C29_lifted' depends on axioms: [propext, Quot.sound]
'Splr.Enc.C29_unlift' depends on axioms: [propext, Classical.choice, Quot.sound]
'Splr.Enc.C29_genuine' depends on axioms: [propext, Quot.sound]
'Splr.Enc.C29_id_roundtrip' depends on axioms: [propext]
'Splr.Enc.C29_disjoint' depends on axioms: [propext, Quot.sound]
'Splr.Enc.C29_bound_needed' depends on axioms: [propext, Quot.sound]
'Splr.Luby.C30_luby' depends on axioms: [propext, Quot.sound]
'Splr.Luby.C30_max' depends on axioms: [propext, Quot.sound]
'Splr.Luby.C30_unique' depends on axioms: [propext, Quot.sound]
'Splr.Stage.C31_schedule_first_search_partial' depends on axioms: [propext, Classical.choice, Quot.sound]
'Splr.Stage.C31_positive' depends on axioms: [propext, Quot.sound]
'Splr.Stage.C31_second_search_stuck' depends on axioms: [propext, Quot.sound]
'Splr.Lbd.C32_lbd' depends on axioms: [propext, Classical.choice, Quot.sound]
'Splr.Lbd.C32_order_independent' depends on axioms: [propext, Classical.choice, Quot.sound]
'Splr.Lbd.C32_long' depends on axioms: [propext]
'Splr.C33_validate' depends on axioms: [propext, Classical.choice, Quot.sound]
'Splr.C33_validate_loose' depends on axioms: [propext, Classical.choice, Quot.sound]
'Splr.C34_dmcr_exact' depends on axioms: [propext, Classical.choice, Quot.sound]
'Splr.C34_incomplete_answers' depends on axioms: [propext, Classical.choice, Quot.sound]
'Splr.C34_empty_answer' depends on axioms: [propext, Classical.choice, Quot.sound]
'Splr.Dimacs.C35_answer_roundtrip' depends on axioms: [propext, Classical.choice, Quot.sound]
'Splr.Dimacs.C36_reads_as_written' depends on axioms: [propext, Classical.choice, Quot.sound]
'Splr.Dimacs.C36_other_layouts' depends on axioms: [propext, Classical.choice, Quot.sound]
'Splr.Dimacs.C36_no_range_check' depends on axioms: [propext, Classical.choice, Quot.sound]
'Splr.Dimacs.C37_roundtrip_partial' depends on axioms: [propext, Classical.choice, Quot.sound]
'Splr.Dimacs.C37_violated' depends on axioms: [propext, Classical.choice, Quot.sound]
'Splr.Dimacs.C37_load_drops_last' depends on axioms: [propext, Classical.choice, Quot.sound]
'Splr.C38_saved_trails_are_sound' depends on axioms: [propext, Classical.choice, Quot.sound]
'Splr.C39_error_iff' depends on axioms: [propext, Classical.choice, Quot.sound]
'Splr.C39_ok' depends on axioms: [propext, Quot.sound]
'Splr.Scan.C40_coverage' depends on axioms: [propext, Classical.choice, Quot.sound]
'Splr.Scan.C40_next' depends on axioms: [propext, Classical.choice, Quot.sound]
'Splr.Scan.C40_bound_needed' depends on axioms: [propext, Quot.sound]
'Splr.Scan.C40_fits' depends on axioms: [propext, Classical.choice, Quot.sound]
'Splr.C41_delete_unstable' depends on axioms: [propext, Classical.choice, Quot.sound]
'Splr.C41_length' depends on axioms: [propext, Classical.choice, Quot.sound]
'Splr.Heap.C42_consistent' depends on axioms: [propext, Classical.choice, Quot.sound]
'Splr.Heap.C42_operations' depends on axioms: [propext, Classical.choice, Quot.sound]
'Splr.Heap.C42_flags_partial' depends on axioms: [propext, Classical.choice, Quot.sound]
'Splr.Heap.C42_violated' depends on axioms: [propext, Quot.sound]
'Splr.C43_occurrences' depends on axioms: [propext, Classical.choice, Quot.sound]
'Splr.C43_pure' depends on axioms: [propext, Classical.choice, Quot.sound]
'Splr.C43_no_clause_missed' depends on axioms: [propext, Classical.choice, Quot.sound]
'Splr.C44_root_level_cleanup' depends on axioms: [propext, Classical.choice, Quot.sound]
'Splr.C45_sat' depends on axioms: [propext, Classical.choice, Quot.sound]
'Splr.C45_unsat' depends on axioms: [propext, Classical.choice, Quot.sound]
'Splr.C45_empty_clause' depends on axioms: [propext, Classical.choice, Quot.sound]
'Splr.C45_invalid_literal' depends on axioms: [propext, Classical.choice, Quot.sound]
'Splr.C45_otherwise' depends on axioms: [propext, Classical.choice, Quot.sound]
'Splr.C45_empty_formula' depends on axioms: [propext, Quot.sound]
'Splr.C45_order_matters' depends on axioms: [propext, Classical.choice, Quot.sound]
'Splr.C46_exit_10' depends on axioms: [propext, Classical.choice, Quot.sound]
'Splr.C46_exit_20' depends on axioms: [propext, Classical.choice, Quot.sound]
'Splr.C46_other_codes' depends on axioms: [propext, Classical.choice, Quot.sound]
'Splr.C46_dmcr_accepts' depends on axioms: [propext, Classical.choice, Quot.sound]
'Splr.Proxy.C47_total' depends on axioms: [propext, Quot.sound]
'Splr.Proxy.C47_by_key' depends on axioms: [propext]
'Splr.Proxy.C47_antisymmetric' depends on axioms: [propext, Classical.choice, Quot.sound]
'Splr.Proxy.C47_transitive' depends on axioms: [propext, Classical.choice, Quot.sound]
'Splr.Proxy.C47_eq_is_finer' depends on axioms: [propext]
'Splr.Proxy.C47_eq' depends on axioms: [propext, Classical.choice, Quot.sound]
'Splr.C48_asking_again_partial' depends on axioms: [propext, Classical.choice, Quot.sound]
'Splr.C48_asking_again_violated' depends on axioms: [propext, Classical.choice, Quot.sound]
'Splr.C48_saved_trail_violated' depends on axioms: [propext, Classical.choice, Quot.sound]
'Splr.C49_model_is_canonical' depends on axioms: [propext, Classical.choice, Quot.sound]
'Splr.C50_any_configuration_partial' depends on axioms: [propext, Classical.choice, Quot.sound]
'Splr.C50_violated' depends on axioms: [propext, Quot.sound]
'Splr.C51_additions_alone_partial' depends on axioms: [propext, Classical.choice, Quot.sound]
'Splr.C51_violated' depends on axioms: [propext, Classical.choice, Quot.sound]
'Splr.C52_solve_never_panics' depends on axioms: [propext, Classical.choice, Quot.sound]
'Splr.C52_conflicts_are_handled' depends on axioms: [propext, Classical.choice, Quot.sound]
'Splr.C52_counter' depends on axioms: [propext, Classical.choice, Quot.sound]
'Splr.C52_sizes' depends on axioms: [propext, Classical.choice, Quot.sound]
'Splr.C53_learnt_clause_is_new' depends on axioms: [propext, Classical.choice, Quot.sound]
'Splr.C53_tidy' depends on axioms: [propext, Classical.choice, Quot.sound]
'Splr.C54_solve_terminates' depends on axioms: [propext, Classical.choice, Quot.sound]
'Splr.C54_any_stage_manager' depends on axioms: [propext, Classical.choice, Quot.sound]
'Splr.C54_stages_are_finite' depends on axioms: [propext, Classical.choice, Quot.sound]
'Splr.C54_solve_answers' depends on axioms: [propext, Classical.choice, Quot.sound]
'Splr.C54_stage_manager_is_a_choice' depends on axioms: [propext, Quot.sound]
'Splr.C55_decides_partial' depends on axioms: [propext, Classical.choice, Quot.sound]
'Splr.C55_subsumption_only_partial' depends on axioms: [propext, Classical.choice, Quot.sound]
'Splr.C55_cause_of_errors' depends on axioms: [propext, Classical.choice, Quot.sound]
'Splr.C55_violated' depends on axioms: [propext, Quot.sound]
'Splr.C55_violated_by_the_loops' depends on axioms: [propext, Quot.sound]
'Splr.C56_loops_are_commands' depends on axioms: [propext, Classical.choice, Quot.sound]
'Splr.C56_loops_end' depends on axioms: [propext, Classical.choice, Quot.sound]
'Splr.C56_terminates' depends on axioms: [propext, Classical.choice, Quot.sound]
'Splr.C56_sound' depends on axioms: [propext, Classical.choice, Quot.sound]
'Splr.C57_decides' depends on axioms: [propext, Classical.choice, Quot.sound]
'Splr.C57_no_false_literal' depends on axioms: [propext, Classical.choice, Quot.sound]
'Splr.C57_propagation_complete' depends on axioms: [propext, Classical.choice, Quot.sound]
'Splr.C58_on_the_trail' depends on axioms: [propext, Classical.choice, Quot.sound]
'Splr.C58_cleared' depends on axioms: [propext, Classical.choice, Quot.sound]
'Splr.C59_dump_implied' depends on axioms: [propext, Classical.choice, Quot.sound]
'Splr.C59_dump_partial' depends on axioms: [propext, Classical.choice, Quot.sound]
'Splr.C59_dump_in_search_partial' depends on axioms: [propext, Classical.choice, Quot.sound]
'Splr.C59_violated' depends on axioms: [propext, Classical.choice, Quot.sound]
'Splr.Cli.C60_documented_partial' depends on axioms: [propext, Quot.sound]
'Splr.Cli.C60_help' depends on axioms: [propext, Quot.sound]
'Splr.Cli.C60_nothing_ignored_partial' depends on axioms: [propext, Quot.sound]
'Splr.Cli.C60_violated' depends on axioms: [propext]
'Splr.C61_file_is_verified' depends on axioms: [propext, Classical.choice, Quot.sound]
'Splr.C62_cut_file' depends on axioms: [propext, Classical.choice, Quot.sound]
'Splr.C62_cut_closed_file' depends on axioms: [propext, Classical.choice, Quot.sound]
'Splr.C63_contradiction_while_building' depends on axioms: [propext, Classical.choice, Quot.sound]
'Splr.C64_policy' depends on axioms: [propext, Classical.choice, Quot.sound]
'Splr.C64_in_the_search' depends on axioms: [propext, Classical.choice, Quot.sound]
'Splr.C64_at_most' depends on axioms: [propext, Classical.choice, Quot.sound]
'Splr.C65_ema' depends on axioms: [propext, Classical.choice, Quot.sound]
'Splr.C65_ema2' depends on axioms: [propext, Classical.choice, Quot.sound]
'Splr.C65_emaSU' depends on axioms: [propext, Classical.choice, Quot.sound]
'Splr.C65_between' depends on axioms: [propext, Classical.choice, Quot.sound]
'Splr.C65_window' depends on axioms: [propext, Classical.choice, Quot.sound]
'Splr.C65_restart_test' depends on axioms: [propext, Classical.choice, Quot.sound]
'Splr.C65_other_initial_value' depends on axioms: [propext, Classical.choice, Quot.sound]
'Splr.C65_early_restarts' depends on axioms: [propext, Classical.choice, Quot.sound]
'Splr.C66_in_bounds' depends on axioms: [propext, Classical.choice, Quot.sound]
'Splr.C66_conflicts' depends on axioms: [propext, Classical.choice, Quot.sound]
'Splr.C66_saved_reasons' depends on axioms: [propext, Classical.choice, Quot.sound]
'Splr.C66_occurrences' depends on axioms: [propext, Classical.choice, Quot.sound]
'Splr.C67_once_per_unassignment_partial' depends on axioms: [propext, Classical.choice, Quot.sound]
'Splr.C67_violated' depends on axioms: [propext, Classical.choice, Quot.sound]
'Splr.C67_average' depends on axioms: [propext, Classical.choice, Quot.sound]
'Splr.C67_decay_rate' depends on axioms: [propext, Classical.choice, Quot.sound]
'Splr.C67_bounds' depends on axioms: [propext, Classical.choice, Quot.sound]
'Splr.C68_phase_saving' depends on axioms: [propext, Classical.choice, Quot.sound]
'Splr.C68_snapshot' depends on axioms: [propext, Classical.choice, Quot.sound]
'Splr.C68_rephase' depends on axioms: [propext, Classical.choice, Quot.sound]
'Splr.C68_snapshot_falsifies' depends on axioms: [propext, Quot.sound]
'Splr.C69_counts' depends on axioms: [propext, Classical.choice, Quot.sound]
'Splr.C69_unreachable_core' depends on axioms: [propext, Classical.choice, Quot.sound]
'Splr.C70_header_partial' depends on axioms: [propext, Classical.choice, Quot.sound]
'Splr.C70_short_partial' depends on axioms: [propext, Quot.sound]
'Splr.C70_violated' depends on axioms: [propext, Classical.choice, Quot.sound]
'Splr.C71_added_clauses_partial' depends on axioms: [propext, Classical.choice, Quot.sound]
'Splr.C71_exact_partial' depends on axioms: [propext, Classical.choice, Quot.sound]
'Splr.C71_violated' depends on axioms: [propext, Quot.sound]
'Splr.C72_facts_are_permanent' depends on axioms: [propext, Classical.choice, Quot.sound]
'Splr.C72_through_a_call' depends on axioms: [propext, Classical.choice, Quot.sound]
'Splr.C73_live_clauses' depends on axioms: [propext, Classical.choice, Quot.sound]
'Splr.C73_local_search' depends on axioms: [propext, Classical.choice, Quot.sound]
'Splr.C73_in_the_solver' depends on axioms: [propext, Classical.choice, Quot.sound]
'Splr.C73_step' depends on axioms: [propext, Classical.choice, Quot.sound]
'Splr.C73_no_overflow' depends on axioms: [propext, Classical.choice, Quot.sound]
'Splr.C73_no_step' depends on axioms: [propext, Quot.sound]
'Splr.C73_violated' depends on axioms: [propext, Classical.choice, Quot.sound]
'Splr.C73_violated_in_the_solver' depends on axioms: [propext, Classical.choice, Quot.sound]
'Splr.C74_resolvents' depends on axioms: [propext, Classical.choice, Quot.sound]
'Splr.C74_completion' depends on axioms: [propext, Classical.choice, Quot.sound]
'Splr.C74_limits' depends on axioms: [propext, Classical.choice, Quot.sound]
'Splr.C75_each_clause_once' depends on axioms: [propext, Classical.choice, Quot.sound]
'Splr.C75_sound' depends on axioms: [propext, Classical.choice, Quot.sound]
'Splr.C75_first_stage' depends on axioms: [propext, Classical.choice, Quot.sound]
'Splr.C75_later_stage' depends on axioms: [propext, Classical.choice, Quot.sound]
'Splr.C75_keeps_the_worst_partial' depends on axioms: [propext, Classical.choice, Quot.sound]
'Splr.C75_violated' depends on axioms: [propext, Classical.choice, Quot.sound]
'Splr.Process.C76_any_moment' depends on axioms: [propext, Classical.choice, Quot.sound]
'Splr.Process.C76_at_the_end' depends on axioms: [propext, Classical.choice, Quot.sound]
'Splr.Process.C76_ends' depends on axioms: [propext, Classical.choice, Quot.sound]
'Splr.Process.C76_one_answer_partial' depends on axioms: [propext, Classical.choice, Quot.sound]
'Splr.Process.C76_violated' depends on axioms: [propext, Classical.choice, Quot.sound]
'Splr.Process.C76_timer_partial' depends on axioms: [propext, Classical.choice, Quot.sound]
'Splr.Process.C76_timer_violated' depends on axioms: [propext, Classical.choice, Quot.sound]
'Splr.Process.C76_cut_answers' depends on axioms: [propext, Classical.choice, Quot.sound]
'Splr.Process.C76_cut_answers_violated' depends on axioms: [propext, Classical.choice, Quot.sound]
'Splr.C77_refines' depends on axioms: [propext, Classical.choice, Quot.sound]
'Splr.C77_sound' depends on axioms: [propext, Classical.choice, Quot.sound]
'Splr.C77_never_panics' depends on axioms: [propext, Classical.choice, Quot.sound]
'Splr.C77_terminates' depends on axioms: [propext, Classical.choice, Quot.sound]
'Splr.C77_decides' depends on axioms: [propext, Classical.choice, Quot.sound]
'Splr.C77_counted' depends on axioms: [propext, Classical.choice, Quot.sound]
'Splr.C77_iteration' depends on axioms: [propext, Classical.choice, Quot.sound]
'Splr.C77_schedule' depends on axioms: [propext, Classical.choice, Quot.sound]
'Splr.C77_stage_end' depends on axioms: [propext, Classical.choice, Quot.sound]
'Splr.C78_queue_is_exact' depends on axioms: [propext, Classical.choice, Quot.sound]
'Splr.C78_decisions' depends on axioms: [propext, Classical.choice, Quot.sound]
'Splr.C79_refines' depends on axioms: [propext, Classical.choice, Quot.sound]
'Splr.C79_solve_never_panics' depends on axioms: [propext, Classical.choice, Quot.sound]
'Splr.C79_api_never_panics' depends on axioms: [propext, Classical.choice, Quot.sound]
'Splr.C79_answers' depends on axioms: [propext, Classical.choice, Quot.sound]
'Splr.C80_refines' depends on axioms: [propext, Classical.choice, Quot.sound]
'Splr.C80_never_panics' depends on axioms: [propext, Classical.choice, Quot.sound]
'Splr.C80_answers' depends on axioms: [propext, Classical.choice, Quot.sound]
'Splr.C80_terminates' depends on axioms: [propext, Classical.choice, Quot.sound]
'Splr.C80_outcomes' depends on axioms: [propext, Classical.choice, Quot.sound]
'Splr.C80_decides' depends on axioms: [propext, Classical.choice, Quot.sound]
'Splr.C81_program' depends on axioms: [propext, Classical.choice, Quot.sound]
'Splr.C81_ends' depends on axioms: [propext, Classical.choice, Quot.sound]
'Splr.C81_exit_codes' depends on axioms: [propext, Classical.choice, Quot.sound]
'Splr.C82_heatmap' depends on axioms: [propext, Classical.choice, Quot.sound]
'Splr.C82_sums' depends on axioms: [propext, Classical.choice, Quot.sound]
'Splr.Files.C83_same_answer_file' depends on axioms: [propext, Classical.choice, Quot.sound]
'Splr.Files.C83_answer_is_apart' depends on axioms: [propext, Classical.choice, Quot.sound]
'Splr.Files.C83_only_these' depends on axioms: [propext, Classical.choice, Quot.sound]
'Splr.Files.C83_written' depends on axioms: [propext, Classical.choice, Quot.sound]
'Splr.Files.C83_refused' depends on axioms: [propext, Classical.choice, Quot.sound]
'Splr.Files.C83_files_partial' depends on axioms: [propext, Classical.choice, Quot.sound]
'Splr.Files.C83_same_names_share' depends on axioms: [propext, Quot.sound]
'Splr.Files.C83_no_name' depends on axioms: [propext, Quot.sound]
'Splr.Files.C83_stale_answer' depends on axioms: [propext, Classical.choice, Quot.sound]
'Splr.Files.C83_proof_overwrites_input' depends on axioms: [propext, Classical.choice, Quot.sound]
'Splr.Files.C83_answer_overwrites_proof' depends on axioms: [propext, Classical.choice, Quot.sound]
'Splr.Limit.C84_limit_partial' depends on axioms: [propext, Classical.choice, Quot.sound]
'Splr.Limit.C84_odd_limits' depends on axioms: [propext, Classical.choice, Quot.sound]
'Splr.Limit.C84_is_timeout' depends on axioms: [propext, Classical.choice, Quot.sound]
'Splr.Limit.C84_monotone' depends on axioms: [propext, Classical.choice, Quot.sound]
'Splr.Limit.C84_decides_in_time' depends on axioms: [propext, Classical.choice, Quot.sound]
'Splr.Limit.C84_violated' depends on axioms: [propext, Classical.choice, Quot.sound]
'Splr.Report.C85_answer_with_comments_partial' depends on axioms: [propext, Classical.choice, Quot.sound]
'Splr.Report.C85_no_answer_partial' depends on axioms: [propext, Classical.choice, Quot.sound]
'Splr.Report.C85_violated' depends on axioms: [propext, Classical.choice, Quot.sound]
