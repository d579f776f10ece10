{
 "claims": [
  {
   "property": "C01",
   "status": "proved",
   "theorems": [
    "Splr.C01_sat_answers_are_models"
   ],
   "note": "Built: any sequence of API calls; all heuristic choices are universally quantified arguments."
  },
  {
   "property": "C02",
   "status": "proved",
   "theorems": [
    "Splr.C02_unsat_answers_are_correct",
    "Splr.C02_add_clause_contradiction",
    "Splr.C02_add_assignment_contradiction"
   ],
   "note": "for enable_eliminator = true (the default); C50_violated shows that this is needed"
  },
  {
   "property": "C03",
   "status": "proved",
   "theorems": [
    "Splr.C03_learnt_clause_is_implied",
    "Splr.C03_handled_conflict_keeps_models",
    "Splr.C03_contradiction",
    "Splr.C03_root_conflict"
   ],
   "note": "Every conflict of the main loop in every reachable state, all heuristic choices universally quantified."
  },
  {
   "property": "C04",
   "status": "proved",
   "theorems": [
    "Splr.C04_learnt_clause_is_asserting"
   ],
   "note": "The statement includes the exception made by the code (feature BT_deepen): a clause of more than two literals judged to be of low quality is learnt without being asserted, one level lower, where two of its literals are open."
  },
  {
   "property": "C05",
   "status": "proved",
   "theorems": [
    "Splr.C05_recursive_minimisation",
    "Splr.C05_binary_minimisation",
    "Splr.C05_minimisation_is_sound"
   ],
   "note": "For every clause of false literals in every reachable state (the reason graph is that of the trail), every set of level hints, every set of binary clauses; the marks are all removed."
  },
  {
   "property": "C06",
   "status": "proved",
   "theorems": [
    "Splr.C06_propagation_is_sound",
    "Splr.C06_sandbox_propagation_is_sound"
   ],
   "note": "The reason is recorded above the root level only (root-level literals become facts)."
  },
  {
   "property": "C07",
   "status": "partial",
   "theorems": [
    "Splr.C07_propagation_complete_partial",
    "Splr.C07_without_eliminator",
    "Splr.C07_clean_clauses_partial",
    "Splr.C07_sandbox_complete_partial",
    "Splr.C07_sandbox_clean_partial",
    "Splr.C07_violated",
    "Splr.C07_violated_by_the_loops"
   ],
   "note": "False in general: after an elimination that leaves a false literal in an unsatisfied clause, a resolvent can be watched at an already propagated false literal, and a later unit is missed (C07_violated). Proved: complete for every run without the eliminator (any clauses, decisions, backtracks, learnt clauses, restarts, reuse of the saved trail, reductions, vivifications); in every run whatsoever for all the clauses without a literal that is false at the root level (C07_clean_clauses_partial, C07_sandbox_clean_partial, the latter also inside the eliminator); and for all clauses in every run in which each elimination is tidy (only subsumptions and propagations, or no false literal left in an unsatisfied clause). Missing, and false: clauses with a literal that is false at the root level after an untidy elimination. C07_violated_by_the_loops: a witness with the control loops of the code (occurrence limit 2). For the loops of the code, runs in which the eliminator reaches none of its limits are covered completely: C57."
  },
  {
   "property": "C08",
   "status": "proved",
   "theorems": [
    "Splr.C08_conflicts_are_real",
    "Splr.C08_sandbox_conflicts_are_real"
   ],
   "note": ""
  },
  {
   "property": "C09",
   "status": "proved",
   "theorems": [
    "Splr.C09_watch_lists",
    "Splr.C09_binary_links",
    "Splr.C09_no_dead",
    "Splr.C09_clause_shape"
   ],
   "note": "For every history of clause-database operations (DbReach)."
  },
  {
   "property": "C10",
   "status": "proved",
   "theorems": [
    "Splr.C10_trail_and_assignment_agree"
   ],
   "note": "All reachable states at function boundaries, during propagation and during vivification."
  },
  {
   "property": "C11",
   "status": "proved",
   "theorems": [
    "Splr.C11_backtracking_restores"
   ],
   "note": ""
  },
  {
   "property": "C12",
   "status": "proved",
   "theorems": [
    "Splr.Heap.C12_permutation",
    "Splr.Heap.C12_no_panic",
    "Splr.Heap.C12_root_of_empty"
   ],
   "note": "All histories of queue operations, arbitrary changing activities."
  },
  {
   "property": "C13",
   "status": "partial",
   "theorems": [
    "Splr.Heap.C13_first_root_partial",
    "Splr.Heap.C13_violated"
   ],
   "note": "True for the first root after a rebuild; false afterwards (percolate_down ignores the last queued slot), proved by witness."
  },
  {
   "property": "C14",
   "status": "proved",
   "theorems": [
    "Splr.C14_choosing_succeeds",
    "Splr.C14_decisions"
   ],
   "note": "For every state at the head of the main loop: select_var returns an unassigned, not eliminated variable whenever one exists (for any order of the heap), NumUnassignedVar > 0 exactly if one exists, and the decision assigns exactly that variable on a new level."
  },
  {
   "property": "C15",
   "status": "proved",
   "theorems": [
    "Splr.C15_elimination",
    "Splr.C15_equisatisfiable"
   ],
   "note": "For every state of pre/inprocessing with the eliminator at work and every eligible variable: clauses of v replaced by exactly the non-tautological resolvents (clauses or facts), models correspond; a reported contradiction means there is no model."
  },
  {
   "property": "C16",
   "status": "proved",
   "theorems": [
    "Splr.C16_models_extend"
   ],
   "note": "For every state of the search (any sequence of eliminations in preprocessing and in all inprocessing rounds) and every model of the remaining clauses and facts."
  },
  {
   "property": "C17",
   "status": "proved",
   "theorems": [
    "Splr.C17_subsumption",
    "Splr.C17_strengthening"
   ],
   "note": "Every pair of clauses; strengthening is, as in the code, by literals of the trail only."
  },
  {
   "property": "C18",
   "status": "proved",
   "theorems": [
    "Splr.C18_vivification"
   ],
   "note": "Every root-level state, every list of targets."
  },
  {
   "property": "C19",
   "status": "proved",
   "theorems": [
    "Splr.C19_reduce",
    "Splr.C19_binary_kept",
    "Splr.C19_reduction_in_the_search"
   ],
   "note": "Database part for every history of the database and any activities; in the search: at the call no clause is a reason, only learnt clauses of more than two literals disappear, models of the clauses held unchanged."
  },
  {
   "property": "C20",
   "status": "proved",
   "theorems": [
    "Splr.C20_fresh_id",
    "Splr.C20_no_resurrection",
    "Splr.C20_freelist"
   ],
   "note": ""
  },
  {
   "property": "C21",
   "status": "proved",
   "theorems": [
    "Splr.C21_lookup",
    "Splr.C21_unique",
    "Splr.C21_add_present"
   ],
   "note": ""
  },
  {
   "property": "C22",
   "status": "partial",
   "theorems": [
    "Splr.C22_statistics_partial",
    "Splr.C22_drift",
    "Splr.C22_violated",
    "Splr.C22_underflow"
   ],
   "note": "Exact for all database operations; violated by try_subsume, which clears LEARNT without updating num_learnt (C22_violated). C22_drift: the exact values for every history with such promotions (num_learnt is too large by their number). C22_underflow: a run of solve after which num_clause < num_learnt, so that the progress report underflows."
  },
  {
   "property": "C23",
   "status": "proved",
   "theorems": [
    "Splr.Cert.C23_roundtrip",
    "Splr.Cert.C23_injective",
    "Splr.Cert.C23_empty_deletion"
   ],
   "note": "For every history of additions and non-empty deletions; the flush at 1024*... is part of the model. The deletion of an empty clause (never recorded by the code) would be ambiguous."
  },
  {
   "property": "C24",
   "status": "proved",
   "theorems": [
    "Splr.C24_certificate_is_verified"
   ],
   "note": "Line by line with additions and deletions, as drat-trim reads it (it ignores the deletion of clauses that are unit under the derived literals). For `solve`, with the eliminator enabled (C50). A contradiction found while the formula is built writes no certificate (DESIGN.md, finding 16). Checkers that execute all deletions: C51."
  },
  {
   "property": "C25",
   "status": "proved",
   "theorems": [
    "Splr.C25_add_clause",
    "Splr.C25_add_assignment",
    "Splr.C25_line",
    "Splr.C25_rejected"
   ],
   "note": "For every solver built by any sequence of API calls (before solve)."
  },
  {
   "property": "C26",
   "status": "proved",
   "theorems": [
    "Splr.C26_add_clause_errors",
    "Splr.C26_add_assignment_errors",
    "Splr.C26_rejection_is_right"
   ],
   "note": "The contradiction at root level is that of the facts known so far (the calls do not propagate). After a RootLevelConflict of add_assignment clauses and assignment are unchanged, but the certificate has got the unit (finding 23)."
  },
  {
   "property": "C27",
   "status": "partial",
   "theorems": [
    "Splr.C27_add_var_partial",
    "Splr.C27_violated",
    "Splr.C27_violated_by_the_loops"
   ],
   "note": "The code violates the last part: solve panics if the variable added has no value when solve starts (finding 22); proved as C27_violated. Everything else is C27_add_var_partial. C27_violated_by_the_loops: with two added variables that have values, the eliminator reads occurrence lists out of bounds."
  },
  {
   "property": "C28",
   "status": "proved",
   "theorems": [
    "Splr.Enc.C28_roundtrip",
    "Splr.Enc.C28_denotes",
    "Splr.Enc.C28_injective",
    "Splr.Enc.C28_not",
    "Splr.Enc.C28_not_denotes",
    "Splr.Enc.C28_not_not",
    "Splr.Enc.C28_ofPair",
    "Splr.Enc.C28_denote_injective",
    "Splr.Enc.C28_order",
    "Splr.Enc.C28_min_is_zero"
   ],
   "note": "literal encoding"
  },
  {
   "property": "C29",
   "status": "proved",
   "theorems": [
    "Splr.Enc.C29_lifted",
    "Splr.Enc.C29_unlift",
    "Splr.Enc.C29_genuine",
    "Splr.Enc.C29_id_roundtrip",
    "Splr.Enc.C29_disjoint",
    "Splr.Enc.C29_bound_needed"
   ],
   "note": "binary-link lifting"
  },
  {
   "property": "C30",
   "status": "proved",
   "theorems": [
    "Splr.Luby.C30_luby",
    "Splr.Luby.C30_max",
    "Splr.Luby.C30_unique"
   ],
   "note": ""
  },
  {
   "property": "C31",
   "status": "partial",
   "theorems": [
    "Splr.Stage.C31_schedule_first_search_partial",
    "Splr.Stage.C31_positive",
    "Splr.Stage.C31_second_search_stuck"
   ],
   "note": "Holds for the first search of a solver; false for a later one (proved by witness)."
  },
  {
   "property": "C32",
   "status": "proved",
   "theorems": [
    "Splr.Lbd.C32_lbd",
    "Splr.Lbd.C32_order_independent",
    "Splr.Lbd.C32_long"
   ],
   "note": "clauses of 8192 or more literals get 65535 by design"
  },
  {
   "property": "C33",
   "status": "proved",
   "theorems": [
    "Splr.C33_validate",
    "Splr.C33_validate_loose"
   ],
   "note": ""
  },
  {
   "property": "C34",
   "status": "proved",
   "theorems": [
    "Splr.C34_dmcr_exact",
    "Splr.C34_incomplete_answers",
    "Splr.C34_empty_answer"
   ],
   "note": "for formulas with at least one variable (C34_empty_answer shows the exception)"
  },
  {
   "property": "C35",
   "status": "proved",
   "theorems": [
    "Splr.Dimacs.C35_answer_roundtrip"
   ],
   "note": "Ascending order and one literal per variable is C49."
  },
  {
   "property": "C36",
   "status": "proved",
   "theorems": [
    "Splr.Dimacs.C36_reads_as_written",
    "Splr.Dimacs.C36_other_layouts",
    "Splr.Dimacs.C36_no_range_check"
   ],
   "note": "For all files with one clause per line. The two extra theorems record how the reader departs from the DIMACS grammar elsewhere."
  },
  {
   "property": "C37",
   "status": "partial",
   "theorems": [
    "Splr.Dimacs.C37_roundtrip_partial",
    "Splr.Dimacs.C37_violated",
    "Splr.Dimacs.C37_load_drops_last"
   ],
   "note": "Proved for add_clause-built CNFs with at least one clause; false for unit clauses given to from_vec_i32 and for the empty CNF (witnesses proved)."
  },
  {
   "property": "C38",
   "status": "proved",
   "theorems": [
    "Splr.C38_saved_trails_are_sound"
   ],
   "note": "At every point of propagate where the saved trail is reused; in particular no panic."
  },
  {
   "property": "C39",
   "status": "proved",
   "theorems": [
    "Splr.C39_error_iff",
    "Splr.C39_ok"
   ],
   "note": ""
  },
  {
   "property": "C40",
   "status": "proved",
   "theorems": [
    "Splr.Scan.C40_coverage",
    "Splr.Scan.C40_next",
    "Splr.Scan.C40_bound_needed",
    "Splr.Scan.C40_fits"
   ],
   "note": "for clauses of at most 65535 literals; beyond, the u16 hint wraps (shown)"
  },
  {
   "property": "C41",
   "status": "proved",
   "theorems": [
    "Splr.C41_delete_unstable",
    "Splr.C41_length"
   ],
   "note": ""
  },
  {
   "property": "C42",
   "status": "partial",
   "theorems": [
    "Splr.Heap.C42_consistent",
    "Splr.Heap.C42_operations",
    "Splr.Heap.C42_flags_partial",
    "Splr.Heap.C42_violated"
   ],
   "note": "Positions, indices and operations are exact for every history; the flag is exact only as long as clear is called on an empty queue and no queued variable is eliminated; false otherwise (witness C42_violated, finding 2)."
  },
  {
   "property": "C43",
   "status": "proved",
   "theorems": [
    "Splr.C43_occurrences",
    "Splr.C43_pure",
    "Splr.C43_no_clause_missed"
   ],
   "note": "All steps of the eliminator (prepare, pure literals, subsumption, strengthening, elimination, propagation). The two conditions on the variable are those under which the code maintains the lists; an example shows that lists of assigned variables do hold removed clauses."
  },
  {
   "property": "C44",
   "status": "proved",
   "theorems": [
    "Splr.C44_root_level_cleanup"
   ],
   "note": "Every root-level state."
  },
  {
   "property": "C45",
   "status": "proved",
   "theorems": [
    "Splr.C45_sat",
    "Splr.C45_unsat",
    "Splr.C45_empty_clause",
    "Splr.C45_invalid_literal",
    "Splr.C45_otherwise",
    "Splr.C45_empty_formula",
    "Splr.C45_order_matters"
   ],
   "note": ""
  },
  {
   "property": "C46",
   "status": "proved",
   "theorems": [
    "Splr.C46_exit_10",
    "Splr.C46_exit_20",
    "Splr.C46_other_codes",
    "Splr.C46_dmcr_accepts"
   ],
   "note": "exit code 20 needs enable_eliminator = true (the default), see C50"
  },
  {
   "property": "C47",
   "status": "proved",
   "theorems": [
    "Splr.Proxy.C47_total",
    "Splr.Proxy.C47_by_key",
    "Splr.Proxy.C47_antisymmetric",
    "Splr.Proxy.C47_transitive",
    "Splr.Proxy.C47_eq_is_finer",
    "Splr.Proxy.C47_eq"
   ],
   "note": ""
  },
  {
   "property": "C48",
   "status": "partial",
   "theorems": [
    "Splr.C48_asking_again_partial",
    "Splr.C48_asking_again_violated",
    "Splr.C48_saved_trail_violated"
   ],
   "note": "VIOLATED in general: after a SAT answer the ELIMINATED flags are cleared but the number of eliminated variables is kept, and the saved trail of the first run is kept; concrete runs where the second call panics (C48_asking_again_violated: the first call eliminated a variable; C48_saved_trail_violated: it eliminated nothing). Proved for any number of calls: if after every answer the elimination store and the saved trail are empty, later SAT/UNSAT answers are right. Missing in the partial theorem: calls after which the saved trail is not empty although nothing is eliminated later."
  },
  {
   "property": "C49",
   "status": "proved",
   "theorems": [
    "Splr.C49_model_is_canonical"
   ],
   "note": ""
  },
  {
   "property": "C50",
   "status": "partial",
   "theorems": [
    "Splr.C50_any_configuration_partial",
    "Splr.C50_violated"
   ],
   "note": "violated: with enable_eliminator = false a satisfiable formula is answered UNSAT"
  },
  {
   "property": "C51",
   "status": "partial",
   "theorems": [
    "Splr.C51_additions_alone_partial",
    "Splr.C51_violated"
   ],
   "note": "Violated: a run whose certificate a strict checker rejects; proved: without deletions the certificate is a proof."
  },
  {
   "property": "C52",
   "status": "proved",
   "theorems": [
    "Splr.C52_solve_never_panics",
    "Splr.C52_conflicts_are_handled",
    "Splr.C52_counter",
    "Splr.C52_sizes"
   ],
   "note": "About the panics the model represents (DESIGN.md). Variables added by add_var after construction are excluded: solve then panics (C27_violated)."
  },
  {
   "property": "C53",
   "status": "proved",
   "theorems": [
    "Splr.C53_learnt_clause_is_new",
    "Splr.C53_tidy"
   ],
   "note": "Clauses with a literal that is false at the root level are excepted (only possible after an untidy elimination, C53_tidy has no exception)."
  },
  {
   "property": "C54",
   "status": "proved",
   "theorems": [
    "Splr.C54_solve_terminates",
    "Splr.C54_any_stage_manager",
    "Splr.C54_stages_are_finite",
    "Splr.C54_solve_answers",
    "Splr.C54_stage_manager_is_a_choice"
   ],
   "note": "Explicit bounds. Whether a conflict counts as a learnt clause for the stage manager (LBD > 1) is arbitrary. timedSolve is solve with the stage manager; C54_stage_manager_is_a_choice: a refinement of solve."
  },
  {
   "property": "C55",
   "status": "partial",
   "theorems": [
    "Splr.C55_decides_partial",
    "Splr.C55_subsumption_only_partial",
    "Splr.C55_cause_of_errors",
    "Splr.C55_violated",
    "Splr.C55_violated_by_the_loops"
   ],
   "note": "VIOLATED in general: a resolvent of eliminate_var can be watched at two literals that are false for good and already propagated; it can then be falsified without a conflict and solve returns Err(SolverBug) for a satisfiable formula (C55_violated; the order of eliminations is an arbitrary choice of the model; C55_violated_by_the_loops: with the control loops of the code, an occurrence limit of 1 and an ample budget). Proved: this is the only cause of an error (C55_cause_of_errors); runs in which every elimination is tidy (no false literal is left in an unsatisfied clause) always end with a correct SAT/UNSAT answer. Missing: untidy eliminations, for which it is false. For the loops of the code, runs in which the eliminator reaches none of its limits are covered completely: C57."
  },
  {
   "property": "C56",
   "status": "proved",
   "theorems": [
    "Splr.C56_loops_are_commands",
    "Splr.C56_loops_end",
    "Splr.C56_terminates",
    "Splr.C56_sound"
   ],
   "note": "solveQ: the solver with the queues, budgets and limits of the eliminator, refining timedSolve (the eliminator as an arbitrary list of commands). Open: budgets, clock, limits and the outcome of skip_var_elimination are arbitrary functions (Model/Skip.lean models the latter)."
  },
  {
   "property": "C57",
   "status": "proved",
   "theorems": [
    "Splr.C57_decides",
    "Splr.C57_no_false_literal",
    "Splr.C57_propagation_complete"
   ],
   "note": "ampleRun (Model/Ample.lean) is a computable question about a run of the modelled loops. Outside it: C07_violated_by_the_loops, C55_violated_by_the_loops. The growth check computes its average exactly, see Model/Skip.lean."
  },
  {
   "property": "C58",
   "status": "proved",
   "theorems": [
    "Splr.C58_on_the_trail",
    "Splr.C58_cleared"
   ],
   "note": "All reachable states of Model/Reach.lean, i.e. also for arbitrary commands of the eliminator."
  },
  {
   "property": "C59",
   "status": "partial",
   "theorems": [
    "Splr.C59_dump_implied",
    "Splr.C59_dump_partial",
    "Splr.C59_dump_in_search_partial",
    "Splr.C59_violated"
   ],
   "note": "C59_dump_implied holds for every history of API calls. Equality of models needs that no literal is known (C59_dump_partial) or that the dump is made above the root level (C59_dump_in_search_partial); otherwise it is false: units are not written at the root level, an unsatisfiable set of clauses is dumped as a satisfiable file (C59_violated)."
  },
  {
   "property": "C60",
   "status": "partial",
   "theorems": [
    "Splr.Cli.C60_documented_partial",
    "Splr.Cli.C60_help",
    "Splr.Cli.C60_nothing_ignored_partial",
    "Splr.Cli.C60_violated"
   ],
   "note": "Partial because of --crl: its value is kept in 16 bits (hypothesis Fits: below 65536). C60_violated: the truncation, and `splr -t 9` takes 9 for the file. f64 and its parser are arbitrary; arguments are Unicode."
  },
  {
   "property": "C61",
   "status": "proved",
   "theorems": [
    "Splr.C61_file_is_verified"
   ],
   "note": "C24 and C23 put together: the text of the file of an UNSAT run. The records satisfy the hypotheses of C23 because every word of the certificate is over the variables (Dom.ct)."
  },
  {
   "property": "C62",
   "status": "proved",
   "theorems": [
    "Splr.C62_cut_file",
    "Splr.C62_cut_closed_file"
   ],
   "note": "For all states in Visited and all prefixes of the text; writing errors of the file are prefixes as well."
  },
  {
   "property": "C63",
   "status": "proved",
   "theorems": [
    "Splr.C63_contradiction_while_building"
   ],
   "note": "Finding 16 is harmless for checkers that accept a proof without an empty clause at the end when unit propagation ends in a conflict (as drat-trim does)."
  },
  {
   "property": "C64",
   "status": "proved",
   "theorems": [
    "Splr.C64_policy",
    "Splr.C64_in_the_search",
    "Splr.C64_at_most"
   ],
   "note": "The activity sums are arbitrary values of any linear order; the number of survivors of the ALL types (a fractional power in f64) is an arbitrary function of the number of candidates."
  },
  {
   "property": "C65",
   "status": "proved",
   "theorems": [
    "Splr.C65_ema",
    "Splr.C65_ema2",
    "Splr.C65_emaSU",
    "Splr.C65_between",
    "Splr.C65_window",
    "Splr.C65_restart_test",
    "Splr.C65_other_initial_value",
    "Splr.C65_early_restarts"
   ],
   "note": "Exact arithmetic in any field (ordered field for bounds and the test); rounding of f64 is not modelled. C65_other_initial_value and C65_early_restarts are findings 28 and 29."
  },
  {
   "property": "C66",
   "status": "proved",
   "theorems": [
    "Splr.C66_in_bounds",
    "Splr.C66_conflicts",
    "Splr.C66_saved_reasons",
    "Splr.C66_occurrences"
   ],
   "note": "In every state between the modelled steps (Visited). Indices held in local variables within one step are not modelled as array reads."
  },
  {
   "property": "C67",
   "status": "partial",
   "theorems": [
    "Splr.C67_once_per_unassignment_partial",
    "Splr.C67_violated",
    "Splr.C67_average",
    "Splr.C67_decay_rate",
    "Splr.C67_bounds"
   ],
   "note": "Violated by the code when the search goes back by exactly one level (C67_violated): save_trail starts at the decision of the last level but one, so variables that keep their value are rewarded and lose their mark. Proved for all other jumps; average, rate and bounds proved in full."
  },
  {
   "property": "C68",
   "status": "proved",
   "theorems": [
    "Splr.C68_phase_saving",
    "Splr.C68_snapshot",
    "Splr.C68_rephase",
    "Splr.C68_snapshot_falsifies"
   ],
   "note": "C68_snapshot_falsifies shows a limit: the snapshot is taken after the next conflict and can falsify a clause."
  },
  {
   "property": "C69",
   "status": "proved",
   "theorems": [
    "Splr.C69_counts",
    "Splr.C69_unreachable_core"
   ],
   "note": ""
  },
  {
   "property": "C70",
   "status": "partial",
   "theorems": [
    "Splr.C70_header_partial",
    "Splr.C70_short_partial",
    "Splr.C70_violated"
   ],
   "note": "Violated by the code: a name of 59 or more bytes is cut at a byte position that may be inside a character, which panics (C70_violated, for every problem). Proved for ASCII names of any length and for all names shorter than 59 bytes."
  },
  {
   "property": "C71",
   "status": "partial",
   "theorems": [
    "Splr.C71_added_clauses_partial",
    "Splr.C71_exact_partial",
    "Splr.C71_violated"
   ],
   "note": "Violated as stated: pure literals asserted in preprocessing stay facts, so a satisfiable addition is rejected (C71_violated; README says incremental mode is unsupported). Proved: SAT answers are models of all clauses; UNSAT/rejections hold relative to the facts kept; exactly right when no fact is more than a consequence. Missing: rounds after which eliminated variables or a saved trail remain (C48)."
  },
  {
   "property": "C72",
   "status": "proved",
   "theorems": [
    "Splr.C72_facts_are_permanent",
    "Splr.C72_through_a_call"
   ],
   "note": "Preprocessing, each iteration, the end of the call, and whole calls in later rounds of a session."
  },
  {
   "property": "C73",
   "status": "partial",
   "theorems": [
    "Splr.C73_live_clauses",
    "Splr.C73_local_search",
    "Splr.C73_in_the_solver",
    "Splr.C73_step",
    "Splr.C73_no_overflow",
    "Splr.C73_no_step",
    "Splr.C73_violated",
    "Splr.C73_violated_in_the_solver"
   ],
   "note": "The search itself is proved correct. The last sentence is false of the code: C73_violated shows that the result is always dropped by select_rephasing_target, because it has a value for every index. With 0 steps allowed, (0, 0) is returned (C73_no_step)."
  },
  {
   "property": "C74",
   "status": "proved",
   "theorems": [
    "Splr.C74_resolvents",
    "Splr.C74_completion",
    "Splr.C74_limits"
   ],
   "note": "C74_limits records that the counter counts some clauses twice and that the result is not closed under resolution. The solver loop with this feature on is not modelled; the operation is, from every visited state."
  },
  {
   "property": "C75",
   "status": "partial",
   "theorems": [
    "Splr.C75_each_clause_once",
    "Splr.C75_sound",
    "Splr.C75_first_stage",
    "Splr.C75_later_stage",
    "Splr.C75_keeps_the_worst_partial",
    "Splr.C75_violated"
   ],
   "note": "All but the last sentence is proved. The last is false of the code: the worst candidates are kept (C75_keeps_the_worst_partial for every state, C75_violated for a reachable one)."
  },
  {
   "property": "C76",
   "status": "partial",
   "theorems": [
    "Splr.Process.C76_any_moment",
    "Splr.Process.C76_at_the_end",
    "Splr.Process.C76_ends",
    "Splr.Process.C76_one_answer_partial",
    "Splr.Process.C76_violated",
    "Splr.Process.C76_timer_partial",
    "Splr.Process.C76_timer_violated",
    "Splr.Process.C76_cut_answers",
    "Splr.Process.C76_cut_answers_violated"
   ],
   "note": "All proved except the last sentence, which is false of the code: with the timer both threads may print an answer and the exit code may be 0 after SATISFIABLE was printed (C76_violated; without the timer it is proved: C76_one_answer_partial); SPLR_TIMEOUT * 1000 wraps (C76_timer_violated); dmcr reports an empty or cut-off answer file as unsatisfiable or invalid (C76_cut_answers_violated)."
  },
  {
   "property": "C77",
   "status": "proved",
   "theorems": [
    "Splr.C77_refines",
    "Splr.C77_sound",
    "Splr.C77_never_panics",
    "Splr.C77_terminates",
    "Splr.C77_decides",
    "Splr.C77_counted",
    "Splr.C77_iteration",
    "Splr.C77_schedule",
    "Splr.C77_stage_end"
   ],
   "note": "The statistics (keys of clauses, phases, activities, restarts), clocks and memory are arbitrary; a long learnt clause all of whose other literals are of level 0 has rank 1 and does not count. C77_schedule is about the first search (later ones: C31)."
  },
  {
   "property": "C78",
   "status": "proved",
   "theorems": [
    "Splr.C78_queue_is_exact",
    "Splr.C78_decisions"
   ],
   "note": "the solver of Model/QueueSolve with the array heap of C12 at every place where the code changes the queue"
  },
  {
   "property": "C79",
   "status": "proved",
   "theorems": [
    "Splr.C79_refines",
    "Splr.C79_solve_never_panics",
    "Splr.C79_api_never_panics",
    "Splr.C79_answers"
   ],
   "note": "numVars \u2264 cnf excludes the known violation with add_var (finding of C52); the arrays of the eliminator's queues are covered by C42"
  },
  {
   "property": "C80",
   "status": "proved",
   "theorems": [
    "Splr.C80_refines",
    "Splr.C80_never_panics",
    "Splr.C80_answers",
    "Splr.C80_terminates",
    "Splr.C80_outcomes",
    "Splr.C80_decides"
   ],
   "note": "Activities, averages, clocks and memory limits are arbitrary. With the eliminator disabled the simplifier is that of Model/QueueSolve. The limits of the eliminator: Model/QueueAmple (when they are reached an error is possible, see C57)."
  },
  {
   "property": "C81",
   "status": "proved",
   "theorems": [
    "Splr.C81_program",
    "Splr.C81_ends",
    "Splr.C81_exit_codes"
   ],
   "note": "the program splr --certify from the text of the file to the exit code, the answer file and the certificate file, on the most detailed model of the solver (C80)"
  },
  {
   "property": "C82",
   "status": "proved",
   "theorems": [
    "Splr.C82_heatmap",
    "Splr.C82_sums"
   ],
   "note": "exact quotients instead of f64; with no live clause the code prints NaN (0/0), which the sums exclude"
  },
  {
   "property": "C83",
   "status": "partial",
   "theorems": [
    "Splr.Files.C83_same_answer_file",
    "Splr.Files.C83_answer_is_apart",
    "Splr.Files.C83_only_these",
    "Splr.Files.C83_written",
    "Splr.Files.C83_refused",
    "Splr.Files.C83_files_partial",
    "Splr.Files.C83_same_names_share",
    "Splr.Files.C83_no_name",
    "Splr.Files.C83_stale_answer",
    "Splr.Files.C83_proof_overwrites_input",
    "Splr.Files.C83_answer_overwrites_proof"
   ],
   "note": "Proved for the default names and an input that is not ./proof.drat, on the whole program of C81 with path resolution, file_name and join modelled; for all names: which places may change (C83_only_these) and what is found there (C83_written); without -r the answer never hits the input. Violated by the code in three ways, each with a witness: a file refuted while loading leaves an answer file of an earlier run in place (exit 20 next to `s SATISFIABLE`), `splr -c proof.drat` overwrites its input, and `-c -r proof.drat` overwrites the certificate. Partial because the full property is false of the code."
  },
  {
   "property": "C84",
   "status": "partial",
   "theorems": [
    "Splr.Limit.C84_limit_partial",
    "Splr.Limit.C84_odd_limits",
    "Splr.Limit.C84_is_timeout",
    "Splr.Limit.C84_monotone",
    "Splr.Limit.C84_decides_in_time",
    "Splr.Limit.C84_violated"
   ],
   "note": "Exact for whole numbers of seconds; for fractions never late and at most one second early. The full property is false of the code: `c_timeout as u64` drops fractions, so a limit below one second ends the search at the first end of a stage (C84_violated). f64 rounding of the quotient is not modelled."
  },
  {
   "property": "C85",
   "status": "partial",
   "theorems": [
    "Splr.Report.C85_answer_with_comments_partial",
    "Splr.Report.C85_no_answer_partial",
    "Splr.Report.C85_violated"
   ],
   "note": "Proved for paths without line feeds, on the program of C81 with all comment lines modelled (formatted numbers are arbitrary texts without line feeds). False of the code for other paths: the path is copied into the first comment line, so a line feed in it makes dmcr panic or read another answer (C85_violated)."
  }
 ]
}