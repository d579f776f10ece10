{"id": "C01", "title": "SAT answers are models", "statement": "Whenever solve() on a freshly built solver returns Certificate::SAT(v), the total assignment described by v satisfies every clause that was given to the solver and every literal given through add_assignment, including clauses that contain variables removed by preprocessing.", "quantifier": "every formula, every schedule of heuristic decisions (decision order, phases, restarts, clause deletions, vivifications, eliminations, stage changes)", "why_tests_cant": "The number of formulas and of heuristic schedules is unbounded; a test fixes one of each.", "anchors": ["src/solver/search.rs: solve, search", "src/assign/stack.rs: extend_model", "src/solver/build.rs: add_clause, add_assignment, inject_from_vec"]}
{"id": "C02", "title": "UNSAT answers are correct", "statement": "Whenever solve() on a freshly built solver, or the builder itself, reports UNSAT (Certificate::UNSAT, EmptyClause or RootLevelConflict), no total assignment satisfies all the given clauses and assignments.", "quantifier": "every formula and every schedule of heuristic decisions, with the default setting enable_eliminator = true (C50 covers other configurations)", "why_tests_cant": "Unsatisfiability is a statement about all assignments, and the wrong answer needs a particular interleaving of learning, deletion, elimination and vivification.", "anchors": ["src/solver/search.rs: solve, search", "src/solver/conflict.rs: handle_conflict", "src/solver/build.rs"]}
{"id": "C03", "title": "Learnt clauses are consequences", "statement": "Every clause or unit the solver learns from a conflict is a logical consequence of the clauses and root-level facts it held at that moment.", "quantifier": "every reachable search state and every conflict in it", "why_tests_cant": "The clause depends on the whole trail and reason graph; tests check a handful of graphs.", "anchors": ["src/solver/conflict.rs: handle_conflict, conflict_analyze"]}
{"id": "C04", "title": "Learnt clauses are asserting", "statement": "After conflict handling the learnt clause is asserted: in the state after the backjump it has exactly one unassigned literal, all the others are false, and that literal becomes true by implication with the learnt clause as its reason (a root-level fact for a unit); the backjump level is the highest level among the other literals. The only exception is a clause of more than two literals judged to be of low quality (BT_deepen): then the solver goes back one level further, asserts nothing, and at least two literals of the clause are open.", "quantifier": "every reachable search state with a conflict at a positive decision level", "why_tests_cant": "Depends on every possible implication graph.", "anchors": ["src/solver/conflict.rs: handle_conflict, conflict_analyze"]}
{"id": "C05", "title": "Clause minimisation is sound", "statement": "Deleting literals from a learnt clause during minimisation (recursive redundancy removal and binary-clause minimisation) leaves a clause that is still implied by the clause database; the asserting literal is never deleted.", "quantifier": "every clause, every acyclic reason graph, every set of level hints, every set of binary clauses", "why_tests_cant": "Redundancy of a literal is a recursive property of unbounded implication graphs.", "anchors": ["src/solver/conflict.rs: minimize_learnt, is_redundant", "src/cdb/db.rs: minimize_with_bi_clauses"]}
{"id": "C06", "title": "Unit propagation is sound", "statement": "Every literal propagation makes true is the only non-false literal of some clause held by the solver, so it is true in every model of the clauses in which the decisions are true; above the root level the recorded reason is such a clause (root-level literals become facts).", "quantifier": "every clause set, trail and watch configuration", "why_tests_cant": "The clause set, the watch lists and the order of propagation are unbounded.", "anchors": ["src/assign/propagate.rs: propagate, propagate_sandbox, assign_by_implication"]}
{"id": "C07", "title": "Unit propagation is complete", "statement": "When propagation ends without reporting a conflict, no clause in the database is falsified or unit with its last literal unassigned.", "quantifier": "every clause set and every history of decisions, backtracks and clause additions", "why_tests_cant": "A missed watch shows up only for particular histories of moved watches and backtracks.", "anchors": ["src/assign/propagate.rs: propagate", "src/cdb/watch_cache.rs", "src/cdb/db.rs: new_clause"]}
{"id": "C08", "title": "Reported conflicts are real", "statement": "When propagation reports a conflict, all literals of the reported clause are false under the current assignment.", "quantifier": "every reachable state", "why_tests_cant": "Depends on every history of watches and cached (blocker) literals.", "anchors": ["src/assign/propagate.rs: propagate, propagate_sandbox"]}
{"id": "C09", "title": "Watch lists match the clauses", "statement": "At every point between public operations, each live clause with three or more literals is registered under exactly the negations of its first two literals, each live binary clause is linked under exactly its two literals, and no list mentions a deleted clause.", "quantifier": "every sequence of clause additions, deletions, watch moves, strengthenings and simplifications", "why_tests_cant": "Dangling or missing watches appear only after particular operation sequences.", "anchors": ["src/cdb/db.rs: new_clause, remove_clause, transform_by_*", "src/cdb/watch_cache.rs", "src/cdb/binary.rs"]}
{"id": "C10", "title": "The trail and the assignment agree", "statement": "At every point a variable is assigned exactly when one of its literals is on the trail or it is an archived root-level fact, never both literals; decision levels along the trail never decrease, and every implied literal's reason clause contains it with all other literals false and assigned no later.", "quantifier": "every history of decisions, implications, root assertions and backtracks", "why_tests_cant": "Requires induction over unbounded histories.", "anchors": ["src/assign/propagate.rs", "src/assign/stack.rs"]}
{"id": "C11", "title": "Backtracking restores the earlier assignment", "statement": "cancel_until(l) removes exactly the assignments made above level l, leaves all others with their value, level and reason unchanged, and returns the solver to level l.", "quantifier": "every reachable trail and every target level", "why_tests_cant": "All trails and levels.", "anchors": ["src/assign/propagate.rs: cancel_until, backtrack_sandbox"]}
{"id": "C12", "title": "The decision queue is a permutation", "statement": "The variable queue always holds each variable at exactly one position, its position index is exact, and membership tells precisely which variables are queued, after any sequence of inserts, removals, root extractions, updates and clears.", "quantifier": "every sequence of queue operations and every activity function", "why_tests_cant": "Index corruption depends on unbounded operation sequences.", "anchors": ["src/assign/heap.rs: VarIdHeap, VarHeapIF, VarOrderIF"]}
{"id": "C13", "title": "The decision queue returns a maximal variable", "statement": "get_heap_root (select) returns a queued variable with maximal activity.", "quantifier": "every queue content and activity function", "why_tests_cant": "Heap order must hold for all sizes; small boundary errors show up only for particular shapes.", "anchors": ["src/assign/heap.rs: percolate_down, get_heap_root"]}
{"id": "C14", "title": "Decisions are made on undecided variables only", "statement": "The variable chosen for a decision is unassigned and not eliminated, and as long as such a variable exists choosing one succeeds.", "quantifier": "every reachable search state", "why_tests_cant": "Needs the invariant that every undecided variable is queued, over all histories of backtracking and trail saving.", "anchors": ["src/assign/select.rs: select_decision_literal, select_var", "src/assign/heap.rs", "src/assign/trail_saving.rs"]}
{"id": "C15", "title": "Variable elimination preserves satisfiability", "statement": "Eliminating a variable replaces its clauses by all their non-tautological resolvents: the remaining formula is satisfiable exactly when the formula before was, and each of its models extends to the eliminated variable.", "quantifier": "every formula and every variable selected", "why_tests_cant": "Equisatisfiability ranges over all formulas and assignments.", "anchors": ["src/processor/eliminate.rs: eliminate_var, merge, merge_cost"]}
{"id": "C16", "title": "Models are extended correctly over eliminated variables", "statement": "extend_model turns any model of the simplified formula into a total assignment satisfying also all the clauses removed by eliminations, whatever the number and order of the eliminations.", "quantifier": "every sequence of eliminations and every model of the residual formula", "why_tests_cant": "Order-dependent stack replay over unboundedly many eliminations.", "anchors": ["src/assign/stack.rs: extend_model", "src/processor/eliminate.rs: make_eliminated_clauses"]}
{"id": "C17", "title": "Subsumption and strengthening preserve the models", "statement": "Backward subsumption removes a clause only if another remaining clause implies it, and removes a literal from a clause only if the shorter clause is implied; the set of models is unchanged.", "quantifier": "every pair of clauses and every clause database", "why_tests_cant": "All pairs of clauses of all sizes.", "anchors": ["src/processor/subsume.rs: try_subsume, have_subsuming_lit, strengthen_clause", "src/processor/simplify.rs: backward_subsumption_check"]}
{"id": "C18", "title": "Vivification preserves the models", "statement": "Replacing a clause by the result of vivification (deletion, shortening, unit, or UNSAT) leaves the set of models of the database unchanged, and the temporary assignments used are fully undone.", "quantifier": "every clause database and every ordering of the clause's literals", "why_tests_cant": "Ranges over all propagations of all databases.", "anchors": ["src/cdb/vivify.rs: vivify, analyze_sandbox"]}
{"id": "C19", "title": "Clause reduction keeps the problem", "statement": "The clause deletion policy removes only learnt clauses that are not reasons of current assignments, so the models of the given clauses are unaffected.", "quantifier": "every database and every policy/threshold", "why_tests_cant": "All databases and thresholds, including ties in the sort key.", "anchors": ["src/cdb/db.rs: reduce, remove_clause"]}
{"id": "C20", "title": "Clause identifiers are never aliased", "statement": "A clause id handed out by clause creation designates no other live clause; an id is reused only after its clause was deleted.", "quantifier": "every sequence of creations and deletions", "why_tests_cant": "Free-list corruption needs particular sequences.", "anchors": ["src/cdb/db.rs: new_clause, remove_clause_fn, reset"]}
{"id": "C21", "title": "Binary clauses are stored once", "statement": "Looking up two literals returns a clause id exactly when a live binary clause over those two literals exists (in either order), and adding a binary clause that is present returns the present one and changes nothing.", "quantifier": "every sequence of additions and removals of binary clauses", "why_tests_cant": "Map refinement over unbounded operation sequences.", "anchors": ["src/cdb/binary.rs: BinaryLinkDB", "src/cdb/db.rs: new_clause, link_to_cid"]}
{"id": "C22", "title": "Clause statistics are exact", "statement": "The reported numbers of clauses, learnt clauses and binary clauses equal the numbers of live clauses of each kind.", "quantifier": "every sequence of database operations", "why_tests_cant": "Counter drift appears only after particular sequences.", "anchors": ["src/cdb/db.rs: derefer Tusize, new_clause, remove_clause, transform_by_*", "src/processor/subsume.rs"]}
{"id": "C23", "title": "The UNSAT certificate text is unambiguous", "statement": "Reading back the dumped proof file yields exactly the sequence of clause additions and deletions that were recorded, in order, whatever the number of records and flush points.", "quantifier": "every sequence of records and every interleaving of flushes", "why_tests_cant": "Round trip over all record sequences.", "anchors": ["src/cdb/unsat_certificate.rs: CertificationStore"]}
{"id": "C24", "title": "The UNSAT certificate is a proof", "statement": "When UNSAT is reported, a DRAT checker (one that, like drat-trim, ignores deletions of unit clauses) accepts the proof: each added clause is RUP or RAT on its first literal with respect to the clauses listed at that line, each deleted clause is listed at that line, and unit propagation on the clauses that are left at the end runs into a conflict.", "quantifier": "every formula and run", "why_tests_cant": "All runs.", "anchors": ["src/cdb/db.rs: certificate_add_assertion, new_clause, remove_clause", "src/cdb/unsat_certificate.rs"]}
{"id": "C25", "title": "add_clause keeps the meaning of the clause", "statement": "A successful add_clause changes the represented formula exactly by conjoining the given clause: duplicates, tautologies, and literals already decided at root level are normalised without changing the set of models.", "quantifier": "every clause (any length, duplicates, complementary literals) and every solver state at root level", "why_tests_cant": "All integer vectors and states.", "anchors": ["src/solver/build.rs: add_clause, add_unchecked_clause"]}
{"id": "C26", "title": "add_clause and add_assignment report exactly the documented errors", "statement": "add_clause/add_assignment return InvalidLiteral exactly when a literal is 0 or its variable exceeds the number of variables; otherwise they fail exactly when the result is contradictory at root level (EmptyClause / RootLevelConflict), and a rejected out-of-range call leaves the solver unchanged.", "quantifier": "every vector of machine integers and every solver state", "why_tests_cant": "The whole i32 range, including i32::MIN, and all states.", "anchors": ["src/solver/build.rs: add_clause, add_assignment, inject_from_vec"]}
{"id": "C27", "title": "add_var extends the solver by one fresh variable", "statement": "add_var increases the number of variables by exactly one, the new variable is unassigned, occurs in no clause, is accepted by later add_clause/add_assignment calls and appears in the model; existing facts are unchanged.", "quantifier": "every solver state and any number of calls", "why_tests_cant": "All interleavings with the other builder calls.", "anchors": ["src/solver/build.rs: add_var", "src/assign/stack.rs: handle(NewVar)", "src/assign/heap.rs: expand_heap"]}
{"id": "C28", "title": "Literal encoding is faithful", "statement": "Converting a non-zero integer to a literal and back is the identity, negation corresponds to arithmetic negation and is an involution, the variable index is the absolute value, and distinct integers give distinct literals.", "quantifier": "every i32 except 0 and i32::MIN", "why_tests_cant": "2^32 values; exhaustive tests of pairs are infeasible.", "anchors": ["src/types/lit.rs"]}
{"id": "C29", "title": "Literals and clause ids share a code space without collision", "statement": "A literal lifted to a clause id is recognised as lifted and unlifts to the same literal, and no genuine clause id is mistaken for a lifted literal, within the supported range of literals and clause ids.", "quantifier": "every literal and clause id in the supported range", "why_tests_cant": "2^31 x 2^31 pairs.", "anchors": ["src/types/lit.rs: From<Lit> for ClauseId", "src/types/idx.rs or src/cdb/mod.rs: ClauseId"]}
{"id": "C30", "title": "The Luby generator yields the Luby sequence", "statement": "The k-th value produced is the k-th element of the Luby sequence (1,1,2,1,1,2,4,...), shifted as the implementation documents, for every k and after every reset; the reported maximum is the maximum so far.", "quantifier": "every k and every interleaving with reset", "why_tests_cant": "Unbounded sequence.", "anchors": ["src/types/luby.rs: LubySeries"]}
{"id": "C31", "title": "Stages end and nest properly", "statement": "Each stage has positive length and ends exactly at its scheduled conflict count; cycles and segments advance exactly when the Luby sequence restarts or reaches a new maximum, so the solver keeps leaving stages forever.", "quantifier": "every number of stages and every later call", "why_tests_cant": "Unbounded number of stages.", "anchors": ["src/solver/stage.rs: StageManager", "src/types/luby.rs"]}
{"id": "C32", "title": "LBD is the number of distinct levels", "statement": "The recomputed rank of a clause equals the number of distinct non-zero decision levels among its literals, independent of literal order and of earlier computations.", "quantifier": "every clause, level map and history of the shared scratch table", "why_tests_cant": "All histories of the scratch buffer with its wrapping stamp.", "anchors": ["src/types/clause.rs: update_lbd"]}
{"id": "C33", "title": "Validation is exact", "statement": "validate() returns None exactly when the injected assignment satisfies every stored clause, and otherwise returns a stored clause that is not satisfied.", "quantifier": "every clause database and every (partial) assignment", "why_tests_cant": "All databases and assignments.", "anchors": ["src/solver/validate.rs", "src/cdb/db.rs: validate, Clause::evaluate"]}
{"id": "C34", "title": "dmcr accepts exactly the models", "statement": "For an answer that gives a value to every variable, the model checker reports a valid assignment set exactly when the answer satisfies the clauses written in the file; for a partial answer it reports a valid set only if the answer can be extended to a model.", "quantifier": "every formula (one clause per line, literals in the declared range) and every answer", "why_tests_cant": "All formulas and answers.", "anchors": ["src/bin/dmcr.rs: main, read_assignment"]}
{"id": "C35", "title": "The printed answer can be read back", "statement": "The 'v' line written by splr for a model parses back (by dmcr's reader) to the same list of literals; one literal per variable in ascending order.", "quantifier": "every model", "why_tests_cant": "All models of all sizes.", "anchors": ["src/bin/splr.rs: save_result", "src/bin/dmcr.rs: read_assignment"]}
{"id": "C36", "title": "DIMACS input is read as written", "statement": "Loading a DIMACS file whose clauses are one per line and terminated by 0 gives the solver exactly those clauses; comments are ignored.", "quantifier": "every formula and layout", "why_tests_cant": "All files.", "anchors": ["src/solver/build.rs: inject", "src/types/cnf.rs: CNFReader"]}
{"id": "C37", "title": "CNF builder dump/load round trip", "statement": "A CNF assembled with the CNF builder and dumped to DIMACS text describes the same clauses, including unit clauses.", "quantifier": "every sequence of builder calls", "why_tests_cant": "All sequences.", "anchors": ["src/cnf/mod.rs: CNF, add_clause, dump_to_string"]}
{"id": "C38", "title": "Saved trails never introduce unsound assignments", "statement": "Re-using a saved trail after a backjump assigns only literals that are implied by the current clauses and decisions, and a conflict it reports is real.", "quantifier": "every search history", "why_tests_cant": "Stale reasons appear only for particular interleavings of save, reduce and reuse.", "anchors": ["src/assign/trail_saving.rs: save_trail, reuse_saved_trail"]}
{"id": "C39", "title": "Soft limits are reported, not crossed silently", "statement": "check_size returns OutOfMemory exactly when a limit is configured (non-zero) and the number of clauses exceeds it; otherwise it returns whether there is no limit or less than three quarters of it is used.", "quantifier": "every limit and count", "why_tests_cant": "All limits and counts.", "anchors": ["src/cdb/db.rs: check_size"]}
{"id": "C40", "title": "Resuming the literal scan covers the clause", "statement": "The remembered search position only affects the order in which the literals of a clause are examined for a new watch: every literal outside the two watches is examined exactly once (clauses of at most 65535 literals).", "quantifier": "every clause length and every remembered position", "why_tests_cant": "All positions and lengths, including counter wrap-around.", "anchors": ["src/assign/propagate.rs: propagate (search_from)"]}
{"id": "C41", "title": "Unordered deletion removes exactly one element", "statement": "delete_unstable removes exactly the first element satisfying the predicate and keeps all the others (as a multiset).", "quantifier": "every vector and predicate", "why_tests_cant": "All vectors.", "anchors": ["src/types/mod.rs: DeleteUnstable"]}
{"id": "C42", "title": "The elimination queue is consistent", "statement": "The queue of candidate variables for elimination holds each variable at most once with an exact index, clear() empties it, and the queued flag of a variable is set exactly when it is in the queue.", "quantifier": "every sequence of queue operations", "why_tests_cant": "Unbounded operation sequences.", "anchors": ["src/processor/heap.rs: VarOccHeap"]}
{"id": "C43", "title": "Occurrence lists are exact", "statement": "While the eliminator is at work, the positive and the negative occurrence list of each variable that has no value and has not been given up (for having too many occurrences) contain exactly the live clauses in which it occurs with that sign, each once.", "quantifier": "every history of the solver and every sequence of linkings, pure-literal assertions, subsumptions, strengthenings, eliminations and propagations during pre- and inprocessing, every choice of clauses and variables", "why_tests_cant": "Unbounded sequences.", "anchors": ["src/processor/simplify.rs: add_cid_occur, remove_cid_occur", "src/processor/heap.rs: LitOccurs"]}
{"id": "C44", "title": "Root-level cleanup keeps the facts", "statement": "Archiving asserted literals (removing them from the trail) never loses a root-level fact: every asserted variable keeps its value and counts as asserted, and simplifying clauses by root-level facts preserves the models.", "quantifier": "every root-level state", "why_tests_cant": "All states.", "anchors": ["src/assign/propagate.rs: clear_asserted_literals, propagate_at_root_level", "src/cdb/db.rs: transform_by_simplification"]}
{"id": "C45", "title": "Edge cases of one-shot solving", "statement": "Certificate::try_from gives SAT with an empty model for the empty formula (if no resource limit is hit); going through the clauses in order, the first clause that is empty, or contradictory with the clauses before it by root-level simplification, gives UNSAT, and the first clause containing 0 gives InvalidLiteral; otherwise the answer is the one of solve().", "quantifier": "every vector of vectors of integers", "why_tests_cant": "All inputs.", "anchors": ["src/solver/mod.rs: Certificate::try_from", "src/solver/build.rs: Solver::try_from", "src/types/cnf.rs: CNFDescription::from"]}
{"id": "C46", "title": "Exit codes match the answers", "statement": "The command-line solver exits with 10 only if the clauses written in the file are satisfiable, the answer file then holding a model of them in the format dmcr reads; it exits with 20 only if they are unsatisfiable; an error gives another code, and no code contradicts the answer written.", "quantifier": "every file with one clause per line in any layout of blanks and comments and literals in the declared range, every schedule of heuristic decisions", "why_tests_cant": "All outcomes.", "anchors": ["src/bin/splr.rs: main, save_result"]}
{"id": "C47", "title": "Ordering proxy is a total order", "statement": "The ordering wrapper used to sort clauses and variables compares by key, treats NaN as greatest and never panics.", "quantifier": "every key", "why_tests_cant": "All keys including NaN.", "anchors": ["src/types/ordered_proxy.rs"]}
{"id": "C48", "title": "A solver can be asked again", "statement": "Calling solve() again on the same solver (after backtracking to the root) gives a correct answer for the same formula.", "quantifier": "every formula and number of calls", "why_tests_cant": "Unbounded histories.", "anchors": ["src/solver/search.rs: solve", "src/solver/stage.rs: initialize"]}
{"id": "C49", "title": "The model is total and canonical", "statement": "A SAT certificate lists exactly one literal per variable, in ascending variable order, for every variable from 1 to the number of variables.", "quantifier": "every SAT run", "why_tests_cant": "All runs, including variables occurring in no clause, pure and eliminated ones.", "anchors": ["src/solver/search.rs: solve", "src/assign/stack.rs: extend_model"]}
{"id": "C50", "title": "Answers do not depend on the configuration", "statement": "Whatever the configuration (eliminator enabled or not, occurrence limit), a SAT answer is a model of what was given and an UNSAT answer means that there is none.", "quantifier": "every configuration, formula and schedule of heuristic decisions", "why_tests_cant": "All combinations of configuration, formula and schedule.", "anchors": ["src/config.rs: enable_eliminator, elm_var_occ", "src/solver/search.rs: solve", "src/processor/simplify.rs: prepare, simplify"]}
{"id": "C51", "title": "The certificate is accepted with all deletions executed", "statement": "When UNSAT is reported, a DRAT checker that executes every deletion, including deletions of clauses that are unit under the derived literals, accepts the proof: no line removes a clause that a later line needs.", "quantifier": "every formula and run", "why_tests_cant": "Whether a deleted clause is needed depends on everything that happens later in the run, for all runs.", "anchors": ["src/cdb/db.rs: remove_clause, transform_by_simplification", "src/assign/propagate.rs: clear_asserted_literals"]}
{"id": "C52", "title": "solve never panics", "statement": "solve() on a solver with fewer than 65535 variables, all declared at construction, never panics (no missing value unwrapped, no index out of range, no unreachable code reached) and no loop within an iteration of the main loop runs forever; every conflict above the root level involves the current decision level, so that it can be analysed; the count of undecided variables never underflows.", "quantifier": "every formula given through the API or a file, every configuration, every schedule of heuristic decisions, any number of iterations", "why_tests_cant": "Panics depend on states reached after arbitrarily many conflicts, restarts, reductions, vivifications and eliminations.", "anchors": ["src/solver/search.rs: solve, search", "src/solver/conflict.rs: handle_conflict, conflict_analyze", "src/assign/propagate.rs: propagate, propagate_sandbox, clear_asserted_literals", "src/cdb/vivify.rs: vivify", "src/processor/simplify.rs: prepare, simplify"]}
{"id": "C53", "title": "Learnt clauses are new", "statement": "The clause learnt from a conflict above the root level is not subsumed by any clause the solver holds (unless that clause contains a literal that is false for good): no work is repeated between two clause-database reductions.", "quantifier": "every formula, configuration, schedule of heuristic decisions, and every conflict of the run", "why_tests_cant": "It must hold at every conflict of every run, in states that depend on arbitrarily many decisions, backtracks, reductions, vivifications and eliminations.", "anchors": ["src/solver/conflict.rs: handle_conflict, conflict_analyze, minimize_learnt", "src/assign/propagate.rs: propagate"]}
{"id": "C54", "title": "The search terminates", "statement": "solve() terminates, without any limit on time or memory: the main loop is over after a number of iterations bounded by a function of the number of variables, whatever the heuristics decide (decisions, phases, restarts, trail saving, clause deletions, vivification and elimination at the ends of stages). Between two ends of a stage the bound is much smaller.", "quantifier": "every formula, configuration, schedule of heuristic decisions (decisions, phases, restarts, trail saving)", "why_tests_cant": "Termination is a statement about all infinite schedules.", "anchors": ["src/solver/search.rs: search, solve", "src/solver/stage.rs: StageManager", "src/solver/luby.rs: LubySeries", "src/solver/conflict.rs: handle_conflict"]}
{"id": "C55", "title": "solve is a decision procedure", "statement": "Without limits on time and memory, solve() on a solver with fewer than 65535 variables, all declared at construction, with the default eliminator setting, always returns Ok(SAT) with a model or Ok(UNSAT), rightly: it neither panics, nor runs forever, nor returns an error such as SolverBug.", "quantifier": "every formula given through the API or a file, every schedule of heuristic decisions", "why_tests_cant": "It combines termination, absence of panics and errors, and correctness over all formulas and schedules.", "anchors": ["src/solver/search.rs: solve, search (SolverError::SolverBug at 181-185)", "src/processor/eliminate.rs: eliminate_var", "src/cdb/db.rs: validate"]}
{"id": "C56", "title": "the eliminator's loops end and change nothing else", "statement": "With the eliminator as the code runs it (clause queue, variable queue, trail of lifted literals, work budget, occurrence and length limits, growth check, clock), every call of solve() still ends, does not panic, gives only true models and only correct UNSAT answers, whatever the limits and budgets are.", "quantifier": "every formula over variables declared at construction, every configuration of the eliminator's limits, every budget and clock, every schedule of heuristic decisions", "why_tests_cant": "The loops feed themselves: each elimination queues variables and clauses again, and a budget runs down; tests see only finitely many schedules and limits.", "anchors": ["src/processor/simplify.rs: prepare, simplify, eliminate, eliminate_main, backward_subsumption_check, enqueue_var, enqueue_clause, add_cid_occur, remove_cid_occur", "src/processor/subsume.rs: try_subsume", "src/processor/eliminate.rs: eliminate_var, skip_var_elimination", "src/processor/heap.rs"]}
{"id": "C57", "title": "an eliminator that reaches none of its limits loses nothing", "statement": "If in a call of solve() with the default growth limit the eliminator never runs into its own limits (no clause longer than the subsumption limit when it starts, no variable given up for too many occurrences, its work budget not used up, its clock not expired with literals left), then after every elimination no clause has a false literal, propagation is complete in the whole search, and - without limits on time and memory - solve() is a decision procedure: it returns Ok(SAT) with a model or Ok(UNSAT), rightly.", "quantifier": "every formula over variables declared at construction, every budget and limit, every schedule of heuristic decisions in which the eliminator reaches none of its limits", "why_tests_cant": "Literals found in the middle of the eliminator's loops must have been removed from every clause, through all re-queueing, in every run; a lost occurrence shows only much later as a missed propagation or SolverBug.", "anchors": ["src/processor/simplify.rs: eliminate, eliminate_main, backward_subsumption_check, add_cid_occur, LitOccurs::is_too_long", "src/processor/eliminate.rs: eliminate_var, skip_var_elimination, merge_cost", "src/processor/subsume.rs: try_subsume, strengthen_clause", "src/solver/search.rs: solve, search"]}
{"id": "C58", "title": "values taken off the trail occur in no clause", "statement": "When the solver forgets the trail at the root level (variables keep their values, the trail becomes empty), no clause that it holds contains an assigned variable, no value is lost and the models are the same; so in every reachable state every assigned variable that occurs in a clause is on the trail, where propagation looks.", "quantifier": "every reachable state of every call: construction, preprocessing, search, vivification, elimination, restarts", "why_tests_cant": "A single clause missed by the clean-up before the trail is wiped would never be looked at again; it depends on the whole history of root-level facts and simplifications.", "anchors": ["src/assign/propagate.rs: clear_asserted_literals, propagate_at_root_level, propagate_sandbox", "src/cdb/db.rs: transform_by_simplification", "src/cdb/vivify.rs: vivify", "src/solver/search.rs: search"]}
{"id": "C59", "title": "the dumped CNF file", "statement": "dump_cnf writes a well-formed DIMACS file for 'all active clauses and assertions': every model of the clauses added so far satisfies the file; and reading the file back gives a formula with the same models (before any literal is known), or, when dumped in the middle of a search, a formula that is satisfiable exactly when the held clauses and root facts are. (The file written after units were added lacks them: the second half fails there.)", "quantifier": "every history of API calls, every reachable state at the head of the search loop", "why_tests_cant": "Which facts are written depends on the level and the history of the trail at the moment of the dump; an omitted unit is visible only by comparing models.", "anchors": ["src/cdb/db.rs: dump_cnf", "src/solver/build.rs: dump_cnf", "src/assign/stack.rs: len_upto"]}
{"id": "C60", "title": "the command line means what the help text says", "statement": "splr [FLAGS] [OPTIONS] <cnf-file> with any sequence of documented flags and options with well-formed arguments sets exactly the named parameters (a later one overrides an earlier one) and solves the named file, or says that it does not exist; -h prints the help and needs no file. Conversely, whenever the solver is run, every word of the command line was an option with its documented effect or the file, so no word is ignored. (Fails: --crl values from 65536 on are truncated; without a file the argument of the last option is taken for the file.)", "quantifier": "every command line (list of words of any length), every parser for floating-point numbers, every file system", "why_tests_cant": "The space of word sequences is infinite and the arguments of options may look like options or like the file.", "anchors": ["src/config.rs: Config, inject_from_args, help_string"]}
{"id": "C61", "title": "the certificate file is a DRAT proof, end to end", "statement": "When solve answers UNSAT and the certificate is saved, the bytes of the file form a text DRAT proof for the given clauses: the file can be read, every line is accepted by a checker (RUP or RAT additions, deletions of listed clauses), and it ends in a conflict. Every integer in it is a literal of the formula's variables.", "quantifier": "every history of API calls, every schedule of heuristic choices, every number of flushes of the queue; fewer than 2^31 variables", "why_tests_cant": "Whether the text of a run is a proof depends on all clauses learned, shortened and deleted, on the encoding of each record and on where the queue is flushed.", "anchors": ["src/cdb/unsat_certificate.rs: CertificationStore", "src/cdb/db.rs: certificate_add_assertion, certificate_save", "src/bin/splr.rs: save_result"]}
{"id": "C62", "title": "a certificate file that is cut off is not misread", "statement": "If the process is killed or the disk is full at any moment, and the certificate file ends at any byte, then either its last line is visibly incomplete (it has no terminating 0) or the file reads as exactly the first lines that were recorded, each of which a checker accepts. A cut file never contains a clause that was not recorded.", "quantifier": "every reachable state during building, search, inprocessing and probing; every byte position; also the closed file", "why_tests_cant": "Crash points: every state of the run combined with every byte of the file.", "anchors": ["src/cdb/unsat_certificate.rs: dump_to_file, add_clause, delete_clause"]}
{"id": "C63", "title": "a contradiction found while building is certified", "statement": "When a clause or an assignment is rejected because it contradicts the clauses given before (the program then reports UNSAT without writing the queued lines or closing the certificate), what the certificate file contains at this moment, possibly nothing, is a DRAT proof for the given clauses together with the rejected one.", "quantifier": "every history of API calls or lines of a file, every rejected clause or assignment", "why_tests_cant": "Which lines have been flushed depends on the size of the formula; the claim needs that unit propagation alone refutes every formula rejected while building.", "anchors": ["src/solver/build.rs: add_clause, add_assignment, add_unchecked_clause, inject", "src/bin/splr.rs: main", "src/cdb/unsat_certificate.rs"]}
{"id": "C64", "title": "clause reduction deletes the worst learnt clauses and nothing else", "statement": "A reduction deletes only learnt clauses whose rank (number of distinct decision levels) is above 4 and above the cutoff of the reduction type; of these candidates it deletes the worst by the key of the type (activity sum or rank; ties by position), exactly min(size, n) of n candidates for the ADD types and all but the computed number for the ALL types. No other clause is changed, no assignment loses its reason, the models stay the same.", "quantifier": "every history of database operations, every state of the search in which a reduction can happen, every assignment of activities, every reduction type, size, cutoff", "why_tests_cant": "Which clauses are candidates depends on the whole history; the order claim ranges over all activity values and all databases.", "anchors": ["src/cdb/db.rs: ClauseDB::reduce", "src/cdb/mod.rs: ReductionType", "src/solver/search.rs: search, reduce calls"]}
{"id": "C65", "title": "moving averages and the restart test compute what they document", "statement": "After any sequence of inputs, Ema and Ema2 hold the exponentially weighted average of the inputs, EmaSU that of the increments, and Ewa and Ewa2 (started at 0) the mean of the last N inputs; an average stays between the bounds of its inputs. A restart is due exactly if the mean of the last 16 ranks exceeds the threshold times the long-term average.", "quantifier": "every sequence of inputs of any length, every window length and span, over exact arithmetic in any ordered field", "why_tests_cant": "The ring buffer and the incremental sum must agree with the definition after any number of wrap-arounds.", "anchors": ["src/types/ema.rs: Ema, Ema2, EmaSU, Ewa, Ewa2", "src/cdb/ema.rs: ProgressLBD", "src/solver/search.rs:398"]}
{"id": "C66", "title": "every stored index is in range", "statement": "At any moment between the steps of building, simplifying and searching, every index the solver has stored is inside the array it is used for: the variables of literals (in clauses, watch lists, cached literals, binary links, the trail, the saved trail, the variable queue, reasons), the clause numbers (in watch lists, binary links, the table of binary clauses, the free list, reasons, conflicts, occurrence lists), the positions in the trail, and the levels of variables. With the default feature unsafe_access the arrays are read without bounds checks, so a violation is undefined behaviour.", "quantifier": "every formula, every configuration, every schedule of decisions, restarts, reductions, vivifications and eliminations, and every state the solver visits between their steps", "why_tests_cant": "An index that is stale only after a rare sequence of eliminations, reductions and recycled clause slots is read without any check; no finite set of runs excludes it.", "anchors": ["Cargo.toml: unsafe_access", "src/cdb/db.rs: ClauseDB, WatchLiteralIndex", "src/assign/stack.rs: AssignStack", "src/assign/propagate.rs: propagate, propagate_sandbox", "src/processor/heap.rs: LitOccurs"]}
{"id": "C67", "title": "activities are conflict participation rates", "statement": "The activity of a variable changes only when the variable loses its value (or is determined, eliminated, or initialised), exactly once per loss, towards 1 if the variable took part in a conflict analysis since the last time and towards 0 otherwise; with a constant rate it is the exponentially weighted average of that record; it always lies between 0 and 1.", "quantifier": "every visited state and every level to go back to; every history of marking, going back, changing the rate, and clearing; over exact arithmetic in any ordered field", "why_tests_cant": "A reward given to the wrong variable or twice changes no answer, only the speed; the bounds must hold for histories of any length.", "anchors": ["src/assign/learning_rate.rs: reward_at_analysis, reward_at_unassign, update_activity_decay", "src/assign/trail_saving.rs: save_trail", "src/types/var.rs: update_activity", "src/solver/search.rs:147-152, 275-279, 352-356"]}
{"id": "C68", "title": "phases are saved and restored", "statement": "When the search goes back, exactly the variables that lose their value remember it as their phase. A snapshot of the assignment without the facts is taken when the search first goes back after a record. Rephasing sets the phases of the snapshot and no others, or discards the snapshot; it never uses a snapshot that contradicts a current value.", "quantifier": "every visited state and every level to go back to; every snapshot and state at rephasing", "why_tests_cant": "The set of undone variables depends on the whole trail; a stale or partial snapshot changes no answer, so runs do not reveal it.", "anchors": ["src/assign/propagate.rs: cancel_until, save_best_phases, 557-561", "src/assign/select.rs: select_rephasing_target, check_consistency_of_best_phases, select_decision_literal", "src/assign/stack.rs: check_best_phase"]}
{"id": "C69", "title": "the reported numbers of variables are right", "statement": "At any moment, the numbers of eliminated, asserted, unasserted and unassigned variables that the solver reports equal the numbers of variables with that status, and none of the unsigned subtractions behind them (including the 'unreachable core') underflows.", "quantifier": "every formula, configuration and schedule; every visited state and every history of records, going back, rephasing and assertions", "why_tests_cant": "The counters are updated in different modules (elimination removes literals from the trail, simplification archives the trail); an underflow needs a particular sequence.", "anchors": ["src/assign/mod.rs: Tusize, derefer", "src/assign/stack.rs: make_var_eliminated, num_best_assign", "src/assign/propagate.rs: 557-561, 762"]}
{"id": "C70", "title": "the header of the progress report is always printed", "statement": "For every file name and every numbers of variables and clauses, printing the header of the progress report succeeds: it shows the name, shortened if it is too long, and the numbers in 59 columns.", "quantifier": "every file name (any Unicode text) and all 64-bit numbers of variables and clauses", "why_tests_cant": "The failing names have a character across one particular byte position that depends on the numbers of digits; a test with any given name does not show it.", "anchors": ["src/state.rs: Display for State (807-838), progress_header", "src/types/cnf.rs: CNFIndicator, CNFReader"]}
{"id": "C71", "title": "clauses added after an answer", "statement": "A program may add clauses and assignments to a solver that has answered SAT and call solve again, in any number of rounds (for instance to enumerate models by adding the negation of each). Every answer SAT is a model of all clauses given so far; UNSAT, or a rejected clause or assignment, means that they are unsatisfiable.", "quantifier": "every formula, every sequence of rounds of additions and calls of solve, every configuration (with the eliminator on) and every schedule in each call", "why_tests_cant": "What the solver holds after an answer depends on the whole search that led to it (facts found, clauses learnt, reduced or removed, pure literals asserted); the property is about all such histories of rounds.", "anchors": ["src/solver/build.rs: add_clause, add_assignment, add_unchecked_clause", "src/solver/search.rs: solve (60-206)", "README.md: 235"]}
{"id": "C72", "title": "facts are permanent", "statement": "A literal that the solver has asserted at the root level stays asserted with the same value through preprocessing, every iteration of the main loop and the end of the call, and nothing is assumed beyond the asserted facts: each assignment that satisfies what was held before and agrees with the facts held now satisfies what is held now.", "quantifier": "every formula, configuration, preprocessing and schedule; every state of the main loop; every round of a session", "why_tests_cant": "Facts are moved, archived and re-entered on the trail by restarts, simplification, vivification and elimination in any order the search produces.", "anchors": ["src/assign/propagate.rs: assign_at_root_level, cancel_until", "src/solver/search.rs: solve, search", "src/processor/simplify.rs: simplify"]}
{"id": "C73", "title": "the local search counts correctly, and its result is used", "statement": "With the feature stochastic_local_search, the local search never panics; the two numbers it returns are the numbers of held clauses that the assignment falsifies at the start and at the end; it only flips variables of clauses that are false at that moment, drawn in proportion to weights of the true number of clauses the flip would break, and it stops early only when no held clause is false. The assignment it finds becomes the phases of the next part of the search.", "quantifier": "every visited state, every table of phases, every positive weight function, every number of steps", "why_tests_cant": "the counts and the break numbers must be right for every clause set and every assignment on the walk; whether the result has an effect depends on the numbers of variables, facts and recorded phases in every state", "anchors": ["src/cdb/sls.rs", "src/assign/select.rs:best_phases_ref", "src/assign/select.rs:override_rephasing_target", "src/assign/select.rs:select_rephasing_target", "src/solver/search.rs:294-347"]}
{"id": "C74", "title": "completion of binary clauses is sound and certified", "statement": "With the feature bi_clause_completion, the completion after a learnt binary clause ends without a panic, adds exactly the missing resolvents of the queued literals, changes no other clause, stores no pair of literals twice, keeps the models of the held clauses, logs every added clause so that each is RUP in the order of the log, and makes no pending propagation: an assignment at rest for the old binary clauses is at rest for the new ones.", "quantifier": "every visited state, every queue of literals", "why_tests_cant": "holds for every set of binary clauses and every queue; soundness is a statement about all assignments", "anchors": ["src/cdb/db.rs:complete_bi_clauses", "src/cdb/db.rs:complete_bi_clauses_with", "src/cdb/db.rs:new_clause", "src/cdb/binary.rs:connect_with", "src/solver/conflict.rs:229-230"]}
{"id": "C75", "title": "which clauses are vivified", "statement": "A call of the vivifier tries no clause twice, only clauses that were there at its beginning, and not more than the limit (ten times the limit before the first restart); it keeps the models. Before the first restart one of the longest clauses for each first literal is tried and no other. Later the clauses tried are the candidates of the stage (rank and use); if there are more than the limit, the best ones (most literals in proportion to the rank) are tried.", "quantifier": "every state at the root level in a run, every limit, stage and record of uses", "why_tests_cant": "needs more than 20000 candidates to observe the truncation; holds for every clause database", "anchors": ["src/cdb/vivify.rs:vivify", "src/cdb/vivify.rs:select_targets", "src/cdb/vivify.rs:to_vivify", "src/types/ordered_proxy.rs:new_invert"]}
{"id": "C76", "title": "the command-line solver at any moment, with its timer", "statement": "Whatever the interleaving of the solver, its timer (SPLR_TIMEOUT) and the buffered writes, and wherever the process is stopped: at most one answer line of the solver and at most one timeout line are printed, a printed answer is right, the answer text visible is the beginning of a complete one, and dmcr accepts it only if the clauses are satisfiable. When the process has ended, exit code 10 or 20 means that the answer was printed and written completely, 0 that UNKNOWN was printed; the process ends if the solver does. Exactly one answer is printed, the one of the exit code; the timer waits as long as SPLR_TIMEOUT says; dmcr does not report a cut-off right answer as wrong.", "quantifier": "every file in the DIMACS format, every schedule of the threads and of the buffer, every crash point, every schedule of heuristic decisions", "why_tests_cant": "races between the timer thread and the main thread are not reproducible; all schedules and crash points have to be considered", "anchors": ["src/bin/splr.rs:main", "src/bin/splr.rs:save_result", "src/bin/dmcr.rs:read_assignment"]}
{"id": "C77", "title": "the solver with its own choices of clauses", "statement": "With the clauses to delete, the clauses to vivify, the ends of the stages and the loops of the eliminator chosen as the code chooses them (open are floating-point statistics, clocks and memory limits), every call of solve() ends, does not panic, returns only models of the given clauses and says UNSAT only if there is none; and if the eliminator reaches none of its limits and no time or memory limit is met, it decides the problem. A conflict counts for the length of a stage exactly if a new clause of more than two literals from at least two levels other than the root (or of 8192 or more literals) was learnt. At the end of a stage the solver restarts, and deletes the worst clauses by activity within a cycle, by rank at the beginning of one; at the beginning of a cycle it vivifies, and at the beginning of a segment it runs the eliminator.", "quantifier": "every set of clauses accepted by the API, every behaviour of statistics, clocks and memory, every reachable conflict and stage end", "why_tests_cant": "the policies interact with the invariants of clauses and trail in all histories of a run", "anchors": ["src/solver/search.rs:search", "src/solver/search.rs:solve", "src/solver/conflict.rs:handle_conflict", "src/cdb/db.rs:reduce", "src/cdb/vivify.rs:vivify"]}
{"id": "C78", "title": "the array queue of decision variables", "statement": "At the beginning of every iteration of the main loop of solve() the queue of variables (an array heap with an index of positions, changed by backtracking, the saved trail, root assignments, elimination, preprocessing and new variables) is consistent: each variable has one position, the index is exact in both directions, and the queued ones are exactly those up to the counter. Every variable without a value that is not eliminated is queued or on the saved trail. While the search goes on and nothing remains to be propagated, selecting a variable succeeds and yields a variable of the problem that has no value and is not eliminated; it is decided with its phase at a new level and nothing else changes.", "quantifier": "every set of clauses accepted by the API, every reachable state of the main loop, all activities at every operation on the queue, all choices of the heuristics", "why_tests_cant": "the queue is updated in pieces at a dozen places (assertion, backtracking, saved trail, rebuild); a missed update shows only after a particular history", "anchors": ["src/assign/heap.rs:VarIdHeap", "src/assign/select.rs:select_var", "src/assign/trail_saving.rs:save_trail", "src/assign/trail_saving.rs:clear_saved_trail", "src/assign/propagate.rs:cancel_until", "src/assign/stack.rs:make_var_asserted"]}
{"id": "C79", "title": "solve and the API stay in range and answer right with the array queue", "statement": "With the array queue of the code, and with a check before the accesses to the arrays of variables and clauses (values, levels, reasons, clauses, the table of levels used for ranks) in the API, propagation, reuse of the saved trail, conflict analysis, minimization, learning, vivification and the eliminator, no check fails, no operation on the queue fails and all loops end; a SAT answer is a model of the given clauses with one literal per variable, an UNSAT answer means that there is none. The run is a run of the solver with an abstract queue for some choices of the next variable.", "quantifier": "every set of clauses accepted by the API with fewer than 65535 variables, no variable added after construction beyond the declared number, all activities at every operation on the queue, all choices of the heuristics", "why_tests_cant": "the accesses are unchecked in the default build (unsafe_access): an index out of range is undefined behaviour, which a test need not show; the indices depend on the whole history", "anchors": ["src/solver/search.rs:solve", "src/assign/propagate.rs:propagate", "src/solver/conflict.rs:handle_conflict", "src/cdb/vivify.rs:vivify", "src/processor/simplify.rs:simplify", "src/solver/build.rs:add_clause"]}
{"id": "C80", "title": "the whole solver as coded: array queue, range checks, the eliminator's loops, the code's own choices", "statement": "The most detailed model of solve() keeps the array queue of decision variables, checks the indices before the accesses to the arrays of variables, of clauses and of levels, runs the loops and the queues of the eliminator, and computes as the code does the clauses deleted by a reduction, the clauses vivified, and the ends of stages. With it: no check fails and no operation on a queue fails, all loops end, and after at most a bound that depends only on the number of variables the answer is SAT with a model of the given clauses with one literal per variable, or UNSAT, there is none and the written certificate is a DRAT refutation, or an error (timeout, memory). It gives the same answer as the solver with an abstract queue for some choices of the next variable. Without limits on time and memory, and if the eliminator reaches none of its own limits (budget, clause length, length of occurrence lists), it always answers SAT or UNSAT.", "quantifier": "every set of clauses accepted by the API with fewer than 65535 variables, no variable added beyond the declared number, all activities and statistics at every step, all clocks and memory limits", "why_tests_cant": "the interplay of reductions, vivification, elimination, backtracking with the saved trail and the queues depends on the whole history; a test runs one history, and unchecked accesses need not show", "anchors": ["src/solver/search.rs:solve", "src/cdb/vivify.rs:vivify", "src/cdb/db.rs:reduce", "src/processor/simplify.rs:eliminate", "src/processor/simplify.rs:simplify", "src/processor/heap.rs:VarOccHeap", "src/assign/heap.rs:VarIdHeap", "src/solver/stage.rs:StageManager"]}
{"id": "C81", "title": "the program from the text it reads to the texts it writes", "statement": "splr with certification, given a DIMACS file over the declared variables (fewer than 65535), never panics and ends after a number of iterations bounded by a function of the number of variables. When it ends: exit code 10 means that the answer file holds a model of the clauses of the file with one literal per variable, which dmcr accepts; exit code 20 means that the clauses have no model and that the text in the certificate file is a DRAT refutation of them (with the UNSATISFIABLE answer file if the search found it, without an answer file if unit propagation refutes the file while it is read); exit code 0 comes with the answer UNKNOWN. Without limits on time and memory, and if the eliminator reaches none of its own limits, the exit code is 10 for exactly the satisfiable files and 20 for exactly the others.", "quantifier": "every well-formed DIMACS text (comments, blanks, several layouts) over at most 65534 declared variables; all activities and statistics at every step; all clocks and memory limits", "why_tests_cant": "a test runs one file with one history; the claim joins parser, solver, certificate writer, answer writer and the independent checker for every file and every history", "anchors": ["src/bin/splr.rs:main", "src/bin/splr.rs:save_result", "src/solver/build.rs:inject", "src/solver/search.rs:solve", "src/cdb/unsat_certificate.rs:CertificationStore", "src/bin/dmcr.rs:main"]}
{"id": "C82", "title": "the table of clause ranks and uses covers every clause once", "statement": "The table printed with --heatmap and in every answer file has seven rows (LBD 1 to LBD 6 and above 6) of eight cells: each cell is the share of the live clauses whose LBD belongs to the row and whose number of uses lies in the interval of powers of two of the column; a row's heading is the share of the clauses of the row. The cells of a row add up to its heading, and the headings add up to one whenever there is a clause: no clause is missing or counted twice, and no index of the table is out of range.", "quantifier": "every clause database, every rank and every number of uses of a clause (16 bits)", "why_tests_cant": "the classes are cut at boundaries (rank 0, 1, 7; uses at powers of two; the saturation at 65535) that sampled databases rarely hit together", "anchors": ["src/cdb/db.rs:clause_heatmap", "src/state.rs:progress", "src/bin/splr.rs:report"]}
{"id": "C83", "title": "splr and dmcr agree on files, and nothing else on the disk is touched", "statement": "After `splr --certify FILE` with default file names ends in a directory: FILE and every file other than ./ans_NAME and ./proof.drat (NAME: the last component of FILE) are as before; after exit code 10, `dmcr FILE` started in the same directory finds the answer of this very run and accepts it; after exit code 20, ./proof.drat holds a DRAT proof that checks and ./ans_NAME holds this run's UNSATISFIABLE. With other names (-o, -p, -r) input, answer and certificate stay three different files.", "quantifier": "every well-formed DIMACS file, every path to it (absolute or relative, with ., .., doubled slashes), every working directory, every prior content of the disk, every run of the solver", "why_tests_cant": "The claim ranges over all paths and directory layouts, all prior disk contents and all solver runs; a test sees one layout.", "anchors": ["src/bin/splr.rs main, save_result", "src/bin/dmcr.rs main", "src/cdb/unsat_certificate.rs CertificationStore::instantiate", "src/config.rs CERTIFICATION_DEFAULT_FILENAME, inject_from_args"]}
{"id": "C84", "title": "The time limit is kept", "statement": "With a time limit of q seconds (`--timeout`, `Config::c_timeout`), the search gives up with TimeOut at the end of a stage exactly if at least q seconds have passed since the start; once over, the limit stays over; if every end of a stage is early enough, the program decides the file (exit code 10 or 20).", "quantifier": "every limit (fractions, negative numbers, NaN, infinities), every time at which a stage ends, every file and run of the solver", "why_tests_cant": "Depends on the moment at which stages end and on the value of the limit; a test sees a few moments of one machine.", "anchors": ["src/state.rs StateIF::elapsed, StateIF::is_timeout", "src/solver/search.rs search (stage end)", "src/config.rs c_timeout"]}
{"id": "C85", "title": "The comments of the answer file do not disturb it", "statement": "The answer file of `splr`, with its comment lines about the input, the statistics and the heat map, reads back as exactly the answer: after exit code 10 the literals read from it are the model that was found and `dmcr` accepts it; after UNSAT or UNKNOWN `dmcr` does not take it for an assignment; whatever the path of the input is called.", "quantifier": "every path of the input, every text of the statistics without line feeds, every well-formed file and run", "why_tests_cant": "Ranges over all file names, statistics and models.", "anchors": ["src/bin/splr.rs save_result, report", "src/bin/dmcr.rs read_assignment"]}
