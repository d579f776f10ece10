# Formal model of splr in Lean 4 — design

The subject is `/repo` (shnarazk/splr, default features: `unsafe_access`, `trail_saving`, `BT_deepen`,
`dynamic_restart_threshold`, `LRB_rewarding`, `reason_side_rewarding`, `rephase`, `reward_annealing`,
`two_mode_reduction`, `clause_elimination`, `clause_vivification`; `chrono_BT` off).
Nothing is run; every Lean definition cites the Rust file and lines it was read from.

## Layout

* `lean/Verif/Spec/*.lean` — small, independent specifications: propositional semantics (`Sem`), what a solver state says
  (`State`), the Luby sequence, text and DIMACS, proof files, clausal proofs RUP/RAT (`Drat`).
* `lean/Verif/Model/*.lean` — the executable model, function by function; `Reach` defines the reachable states.
* `lean/Verif/Lemmas/*.lean` — helper lemmas (invariants and their preservation).
* `lean/Verif/Props/*.lean` — the property theorems only, each with an `example` that its hypotheses are met.
* `properties.jsonl` — the properties in English; `MANIFEST.json` — property → theorems; `seeded/LOG.jsonl` — mutation tests.

## Conventions

* A literal is `⟨var, sign⟩`; `Model/Lit.lean` models the 32-bit ordinal encoding separately and relates the two.
* Vectors indexed by variables, literals or clause ids are functions with pointwise update; clause vectors are lists.
* Heuristics computed in floating point or from clocks (activities, EMA, restart decisions, phases, reduction victims,
  vivification targets, order of elimination, `check_size` and timeout outcomes) are arguments (`Pre`, `Orc`, `StageOrc`),
  universally quantified in the theorems: the theorems hold for every value, hence for the values the code computes.
* A panic (index out of range, `unwrap` of `None`, unsigned underflow, `unreachable!`) is an explicit value (`none` or `panic`);
  loops whose termination is not structural carry a fuel argument with the explicit value `fuel` when it runs out. C52 says
  which of these values are impossible.
* Reachable states are inductive predicates (`Built`, `Head`, `Decided`, `Propagating`, `Conflict`, `Inner`, `Probe`,
  `Visited`): any sequence of API calls, then any run of `solve`. `DbReach` are the histories of the clause database.

## Trusted base

1. Lean's kernel (4.33.0); every module is also replayed by the checker used by `vcheck`.
2. The axioms `propext`, `Classical.choice`, `Quot.sound`. No theorem of `Verif` depends on any other axiom
   (`#print axioms` on each theorem of `MANIFEST.json` lists a subset of these three; the list is in `AXIOMS.txt`). No
   `native_decide`, `bv_decide`, own axioms, `implemented_by`, `unsafe`.
3. The reading of the Rust code into `Model/*`: the code is not run or extracted, so each definition must be compared with the
   cited lines. Simplifications are stated in the comment of the definition.
4. The specifications `Spec/*` and the property statements.

### What is modelled

| code | model |
|---|---|
| `types/lit.rs`, `types/idx.rs` (encoding, lifting of clause ids) | `Model/Lit` (32-bit words) |
| `types/luby.rs` | `Model/Luby` |
| `solver/stage.rs`, the stage arithmetic of `search` | `Model/Stage` |
| `assign/heap.rs`, `processor/heap.rs` (array heaps) | `Model/Heap` |
| `types/mod.rs` (`delete_unstable`), `types/ordered_proxy.rs`, `db.rs` `update_lbd`, `check_size`, the scan of `propagate` | `Model/Misc` |
| `cdb/unsat_certificate.rs` | `Model/Cert` |
| `types/cnf.rs`, `solver/build.rs` (reading), `bin/splr.rs` (`save_result`, exit codes), `bin/dmcr.rs`, `cnf/mod.rs` | `Model/Dimacs`, `Model/Main` |
| `cdb/db.rs`, `cdb/binary.rs`, `cdb/watch_cache.rs` | `Model/Cdb`, `Model/CdbRun` |
| `assign/stack.rs`, `assign/propagate.rs`, `assign/trail_saving.rs`, `assign/select.rs` | `Model/Stk`, `Model/Root` |
| `solver/conflict.rs`, `minimize_with_bi_clauses` | `Model/Conflict` |
| `solver/build.rs` (API), `solver/validate.rs` | `Model/Build` |
| `cdb/vivify.rs` | `Model/Vivify`, `Model/VivTargets` |
| `processor/{simplify,subsume,eliminate}.rs`, `extend_model` | `Model/Elim` |
| `solver/search.rs`, `solver/restart.rs` (as a choice) | `Model/Solve` |
| the same with the stage manager of the code | `Model/Timed` |
| the control loops of `processor/{simplify,subsume,eliminate}.rs`, `skip_var_elimination` | `Model/ElimLoop`, `Model/Skip` |
| the solver with both | `Model/Full` |
| `cdb/db.rs` `dump_cnf` | `Model/Dump` |
| `config.rs` `inject_from_args` | `Model/Cli` (specification of the help text: `Spec/Cli`) |
| `cdb/db.rs` `reduce` (policy) | `Model/Reduce` |
| `types/ema.rs`, `cdb/ema.rs` | `Model/Ema` (specification: `Spec/Average`) |
| `assign/learning_rate.rs`, `types/var.rs`, phases and rephasing of `assign/{select,stack,propagate}.rs` | `Model/Heur` |
| `cdb/sls.rs`, the rest of `assign/select.rs` | `Model/Sls` (specification: `Spec/Local`) |
| `cdb/db.rs` `complete_bi_clauses` | `Model/Complete` (specification: `Spec/Binary`) |
| `state.rs` (header line) | `Model/Header` |
| `bin/splr.rs` as a process: the timer thread, the buffered output, crashes | `Model/Process` (specification: `Spec/Process`) |
| `solver/search.rs` with the reductions, the targets of vivification, the stage manager and the eliminator of the code | `Model/Whole` |
| `solver/search.rs`, `assign/*`, `solver/*` with the array queue and range checks | `Model/Queue`, `Model/QueueSearch`, `Model/QueueSolve`, `Model/QueueReach` |
| the loops and queues of the eliminator on that state; the whole solver with both | `Model/QueueElimLoop`, `Model/QueueWhole` |
| `bin/splr.rs` `main` with that solver: the text read, the texts written, the exit code | `Model/QueueMain` |
| `cdb/db.rs` `clause_heatmap` | `Model/Heatmap` |
| (not code) does a run of the eliminator reach one of its limits? | `Model/Ample`, `Model/QueueAmple` |

### What is not modelled

* Floating-point rounding. Activities and rewards, phases and rephasing only influence choices, which are quantified; the
  activities of variables and the phases are modelled separately (C67, C68), over any ordered field. Not modelled: `assign/evsids.rs`
  (feature off), `cdb/activity.rs`. The averages (`types/ema.rs`, `cdb/ema.rs`) and the keys of the clause
  reduction are modelled over an arbitrary ordered field or linear order (C64, C65), separately from the search.
* `state.rs` (reporting) except the header line and the numbers of variables (C69, C70), signals; the texts of messages (the timer thread of `splr`: C76).
* `chrono_BT`, the search with `bi_clause_completion` (the operation alone: C74),
  `clause_rewarding`, `maintain_watch_cache`, incremental solver feature, `suppress_reason_chain`.
* Operating-system effects: file creation, partial writes, flushing, signals, threads, stack overflow, memory exhaustion.
  (The certificate file cut off at any byte in any state is covered by C62.)
* Arithmetic overflow: an underflow of an unsigned counter is a panic in the model, as in a debug build; a release build wraps.
  The theorems say that it does not occur, so this matters only for the findings that mention it.
* The unchecked array reads of `unsafe_access`: the arrays are functions, so that a read out of range has a value in `Model/Solve`.
  C66 shows that the stored indices are in range between the modelled steps. `Model/QueueSearch` and `Model/QueueSolve` are the same functions with
  explicit checks of the indices of variables, clauses and levels; C79 shows that no check fails; `Model/QueueElimLoop` and `Model/QueueWhole` (C80) do so for the loops of the eliminator, too. Not checked: positions inside a watch list (always taken from its length), and the statistics.
* In `Model/Stk` the decision heap is the set of its members; in `Model/Queue`, `QueueSearch`, `QueueSolve` it is the array heap
  of `Model/Heap` (C12/C13), with arbitrary activities at each operation (C78, C79).
* The limits of machine integers, except where a property is about them (C28, C29, C40, C32).

## Properties: what is modelled and how it is proved

* **C01, C02, C49, C50** `solve` is modelled end to end; invariant `Glob` (models of the given formula = extensions of models
  of clauses + facts, over the stack of eliminated clauses) through every step of preprocessing, search and inprocessing.
* **C03–C05, C08** conflict analysis on the reason graph; invariants of the trail (`Stk.Inv`), then resolution arguments by
  induction along the trail.
* **C06, C38** propagation as a sequence of elementary steps (`PStep`), each justified by a clause or a binary link.
* **C07** the invariant of the watched literals (`Wt`: a clause watched at a literal that has been propagated as false has a
  literal that was true no later; a cached literal belongs to the clause or is false for good) through propagation, backtracking,
  reuse of the saved trail, learning, reduction, vivification and elimination. The eliminator violates it (finding 13); the
  theorems cover every run in which no false literal survives an elimination in an unsatisfied clause (`Tidy`), and, in every run,
  all clauses without a literal that is false at the root level.
* **C09, C20, C21, C22** invariant `Cdb.WF` by induction over the histories `DbReach` of database operations.
* **C10, C11** `Stk.Inv` in all `Visited` states; cut lemmas for `cancel_until`.
* **C12, C13, C42** the array heap refines a finite set, for every sequence of operations and any activities.
* **C14** the heap contains every live unassigned variable (`HeapOK`/`Unl`), the counters count.
* **C15, C16, C17, C43** occurrence lists complete for live variables (`OccInv`) → the resolvents are all resolvents;
  `extend_model` replays the stack.
* **C18, C19, C44** `Tr`: a transition of root-level state preserves the set of models and adds only RUP/RAT steps.
* **C23, C35–C37** text written and read back: round trips on lists of characters.
* **C24** the lines of the certificate against a model of a checker (`Spec/Drat`: `Accepted`, `Verified`). Invariant `Chk`: the
  checker has accepted all lines, lists every clause of the database (as multisets), and derives all root literals, or a
  conflict, by unit propagation; it ignores deletions of unit clauses.
* **C51** the strict checker; violated, see finding 20.
* **C25–C27, C33, C34, C45, C46** API calls and programs as functions; corollaries of the above.
* **C28, C29, C30, C32, C39–C41, C47** pure functions.
* **C31** the stage manager as a state machine.
* **C48** `Asked`: any number of calls; a later call is about a conservative extension of the given formula (the clauses logged
  so far); violated in general, see finding 5.
* **C52** the model of `solve` never yields `panic` or `fuel`.
* **C53** a clause contained in the learnt clause would be falsified at the level before the last, or unit; by completeness of
  propagation (C07) it is neither.
* **C54** Model/Timed.lean is `solve` with the stage manager. Within a stage nothing is forgotten, so every conflict adds a clause
  that is new as a set (C53) or a root-level fact: at most 4^n + n conflicts. Each stage lasts (number of ones in the Luby sequence so far) × 32
  learnt clauses, so after finitely many stages one is longer than that. Potential function: stages left, conflicts left,
  levels left.
* **C55** C01, C02, C52, C54 together with: errors come only from the limits and the final check of the model, and the check
  fails only if both watches of a clause are stale.

* **C56** Model/ElimLoop.lean has the queues and the budget; simulation: every run of the loops is a run of `Model/Elim` with some
  commands (`solveQ_eq`), with measures for the fuel of each loop.
* **C57** invariant of the loops: a literal of the trail below the position of the backward check has its negation in no clause, and clauses
  stay short because the growth check bounds the length of resolvents (`Careful`); together with C58, no clause has a false literal.
* **C58** invariant of all reachable states (`AC`): an assigned variable that is not on the trail is in no clause; the last pass of
  `propagate_at_root_level` has looked at every clause and found nothing.
* **C59** the text written by `dump_cnf` is read back by the model of the DIMACS reader (`dump_reads`), the clauses compared with the held
  ones and the trail.
* **C60** induction over the list of options for `loop`, and over the words for the converse (`loop_line`).
* **C61** C24 and C23; that all words are over the variables and not empty is part of the invariant (`Dom.ct`), deleted clauses are listed.
* **C62** a prefix of a numeral of a non-zero number does not read as 0, so a cut line has no terminator (Lemmas/Torn.lean); the certificate of every
  visited state is accepted so far (`Visited.certOK`).
* **C63** a consistent set of literals that respects the given clauses respects the lines recorded while building (`BOK.ups`).
* **C64** `perm.sort()` is the stable insertion sort of the candidates by key; the deletion is the fold of `remove_clause` proved for C19.
* **C65** ring-buffer invariant (`RingOK`: the pool is the last N inputs, rotated at the write position), closed form of the
  exponential average by induction from the right.
* **C66** consequences of the invariants of C01/C03/C07/C09 (`Cdb.WF`, `Stk.Inv`, `Dom`, `Wt`) in every visited state; the levels of
  unassigned variables and the occurrence lists need their own inductions (`Dom.lv`, `OB`).
* **C67** the list of rewarded variables is a permutation of the undone part of the trail unless the jump is by one level; bounds by
  induction over events; the average by induction from the right.
* **C68** the undone variables are those of the trail above the level (C11); the snapshot is the trail above the root level, and levels
  follow from positions (`Inv.lev`).
* **C69** `Cnt`, an invariant of all steps, says what the counters count; counting over the disjoint classes of variables.
* **C70** strings are lists of characters with their UTF-8 sizes.
* **C71** `SesOK F K x`: the held clauses and facts have the models of `F` that agree with `K`; preserved by every API call and
  by a call of `solve` that leaves no eliminated variable (`solve_again_sub`). Stated over `Session`, an inductive of rounds.
* **C72** `Mono` (facts only grow; what is held follows from what was held and the new facts) for every step; composition by transitivity.
* **C73** the scan of the clauses by induction (counts, break numbers, target); the loop by induction over the steps left, as a
  `Walk`; the weights are any positive function, over an ordered field. The dropped result: counting the recorded phases.
* **C74** induction over the added pairs and over the queue; each added clause is a resolvent of clauses held before.
* **C75** the table of first literals and the sorted list by induction; a limited loop is the loop over a prefix of the targets.
* **C76** an invariant of all interleavings: what is printed and written is determined by how far the main thread is.
* **C77** refinement: each choice of the code is one of the choices quantified over in C56/C57; the counting of conflicts by cases of `handle_conflict`.
* **C78, C79** simulation: `QRel` relates the state with the array queue to the state with the list of its members; each function with the suffix `Q` gives
  related results (`*_sim`, Lemmas/Queue*.lean), for some choice of the next variable; then C01, C02, C14, C49, C52 carry over.
* **C80** the same simulation for the functions with the suffix `A` (Lemmas/QueueLoop*, QueueVivify, QueueWhole), onto the model of C77; then C24, C52, C77 carry over.
* **C81** composition: loading simulates `Sol.load` line by line (C36, C78), `solveA` by C80, the certificate text by C61/C63, the answer text by C34/C46. The specification is the inductive predicate `Right` beside the theorem.
* **C82** the hash map of counts is the multiset of the keys of the live clauses; each key lies in the grid.
* **C83** paths as texts, `components`/`file_name`/`join` of `std::path`, a disk as a map from places to texts (no links, every file can be created);
  joining is walking (`locate_join`), then the program of C81 on the disk.
* **C84** seconds as rationals, `as u64` with its saturation, NaN and the infinities; then the flags of the run of C81 are those of a clock.
* **C85** the comment lines as texts, numbers as arguments; each line starts with `c` and has no line feed, so that the reader of C35 skips them.

## Partial and violated properties

See the `note`s of `MANIFEST.json`. Violations are proved with concrete witnesses (`…_violated`).

## Findings (disagreements between the code and what one expects); P = proved as a theorem

1. P `percolate_down` of both heaps compares with `<` where `<=` is needed: the last queued element is ignored, `get_root`
   does not always return the maximum (`C13_violated`).
2. `VarOccHeap::clear` iterates over `heap[0..n]` instead of `heap[1..=n]`: the last queued variable keeps its ENQUEUED flag.
3. P `try_subsume` turns off LEARNT without decrementing `num_learnt` (`C22_violated`); `num_bi_learnt` is never decremented.
   The drift adds up: after as many promotions as there are permanent clauses, `num_clause - num_learnt` in the progress report underflows (`C22_drift`, `C22_underflow`).
4. `reset()` does not push to the free list; `transform_by_replacement` swaps the certificate entries (both unused).
5. P (`C48_asking_again_violated`, `C48_saved_trail_violated`) A second `solve` after SAT: the ELIMINATED flags are cleared but `num_eliminated` and the stack of eliminated clauses are
   kept, so NumUnassignedVar underflows; RESTART keeps the saved trail, which the second run may reuse.
6. P the stage manager of a second search never leaves its stage (`C31_second_search_stuck`).
7. P `inject` does not check literals against the header; several clauses in a line or a clause over several lines are
   mis-read; overlong tokens dropped; a missing trailing 0 is accepted; `%`/`0` footer reads as the empty clause.
8. P CNF builder: unit clauses lost, the empty CNF dumps as an unsatisfiable file, `load` drops the last token of a line.
9. P `Lit::from(i32::MIN)` is the literal with ordinal 0.
10. P `search_from` wraps at 65536 literals.
11. P `get_root` of an empty heap underflows.
12. the BinaryLink branch of `conflict_analyze` does not skip root-level literals (sound).
13. P resolvents of `eliminate_var` may watch false, already propagated root literals: a literal found during elimination is
    removed only from the clauses in its occurrence lists (incomplete for a variable with too many occurrences, and skipped
    for long clauses or on a timeout, simplify.rs:415-578), and a resolvent is watched at its first two literals. Completeness
    of propagation is lost until the next cleanup (`C07_violated`), and `solve` may return `SolverBug` (`C55_violated`). Both happen with
    the loops of the code (`C07_violated_by_the_loops`, `C55_violated_by_the_loops`), with a small occurrence limit (option `evo`).
    They do not happen if the eliminator reaches none of its limits (C57).
14. `merge_cost` overcounts. 
15. P the deletion of an empty clause in the certificate would be ambiguous (never written).
16. a contradiction found while building never writes or closes the certificate (harmless, C63).
17. P `dmcr` rejects the empty answer as inconsistent (`C34_empty_answer`).
18. P `OrderedProxy`: `Eq` is finer than `Ord`.
19. `transform_by_elimination` 3→3 leaves a stale cached literal (harmless: the literal is false for good, see `Wt`).
20. P literals implied at level 0 are not logged, and `clear_asserted_literals` deletes their reasons before it shortens other
    clauses: a checker that executes deletions of unit clauses rejects the proof (`C51_violated`). The given clauses are
    logged as additions when they are stored, so that a checker sees them twice and never loses the original copy.
21. P `config.enable_eliminator = false`: every unassigned variable is asserted as "pure" → wrong UNSAT (`C50_violated`).
22. P `add_var` does not update the size of the formula; `solve` panics if the new variable is unassigned (`C27_violated`).
23. after `add_clause` returned `EmptyClause` the solver forgets the clause; after `add_assignment` returned
    `RootLevelConflict` the certificate holds the contradictory unit.
24. P one-shot errors are found clause by clause: `[[1],[-1],[0]]` is UNSAT, not `InvalidLiteral` (`C45_order_matters`).
25. P with two added variables, both given values, the eliminator reads its occurrence lists out of bounds
    (`C27_violated_by_the_loops`).
26. P `dump_cnf` at the root level writes no units (`len_upto(0)` is 0 there), although the header counts them and the API says
    "all active clauses and assertions": an unsatisfiable formula may be dumped as a satisfiable one (`C59_violated`); `1..nv` misses the last
    variable in the loop over eliminated variables.
27. P `--crl 65541` sets 5 (`val as u16`), and `splr -t 9` solves the file `9` (`C60_violated`). `--stat` is in the table of option names but every
    use of it panics. A bad command line is a panic with a backtrace message, not a usage error.
28. P `Ewa::new(v)`/`Ewa2::new(v)` with v ≠ 0 fill the ring with `v` where the update expects `v / N`: the value is off by
    (1−N)·v forever (`C65_other_initial_value`). The program only uses 0.
29. P the long-term average of ranks starts at 0 and is not calibrated (feature off): as long as at most 16 ranks are recorded,
    a restart is due after every conflict for any threshold below 512 (`C65_early_restarts`).
30. `ProgressLBD` is documented as being about learnt clauses but averages the ranks of all new clauses and 0 for asserted literals;
    `ProgressLBD::get_slow` returns the fast value.
31. `for vi in 1..asg.num_vars` in search.rs:148 skips the last variable when the initial activities are set.
32. P `save_trail` rewards (and clears the mark of) variables that keep their value when the search goes back by one level: it
    starts at the decision of the last level but one even if that is below the target (`C67_violated`).
33. P the "best phases" are recorded after a conflict-free propagation but copied at the next backtrack, so that they include
    the conflicting level and can falsify a clause (`C68_snapshot_falsifies`).
34. P `Display for State` cuts the file name at a byte position: a file name of 59 or more bytes with a multi-byte character there
    makes the program panic before solving (`C70_violated`).
35. P clauses added after an answer are judged with the pure literals of preprocessing asserted as facts: a satisfiable addition
    is rejected with `EmptyClause` (`C71_violated`). README.md:235 says that incremental mode is no longer supported, and the
    comment at search.rs:98-101 says that the literals must not be asserted at root level, which the code below it does.
36. P the result of the local search (feature `stochastic_local_search`) never has an effect: `override_rephasing_target` records
    a phase for every index from 0 to the number of variables, and `select_rephasing_target`, called next, drops the phases
    if there are as many as unasserted variables (`C73_violated`). Facts get the value false in the start of the search, whatever they are.
37. the documentation of `stochastic_local_search` says that it returns decision levels; it returns numbers of falsified clauses, and
    (0, 0) if no step is allowed, whatever is falsified (`C73_no_step`).
38. `num_bi_clause_completion` counts a clause once for each way of deriving it, and the clauses of two literals are not closed under
    resolution after the completion (`C74_limits`).
39. when there are more than 20000 candidates for vivification the worst ones are kept: `to_vivify` says "smaller is better",
    `new_invert` negates, then the list is sorted and its end is cut off (`C75_keeps_the_worst_partial`, `C75_violated`).
40. `VIVIFY_LIMIT` is compared with the number of tries only after a try without conflict; before the first restart up to 200000
    clauses may be tried (`C75_each_clause_once` gives the bound).
41. `splr` prints the answer before it writes the answer file; with SPLR_TIMEOUT the timer may print `s UNKNOWN` after it and end the process
    with code 0 and an empty answer file, or print it in the middle of the line with the model (`C76_violated`).
42. SPLR_TIMEOUT * 1000 wraps for large numbers: 18446744073709552 seconds are 384 milliseconds (`C76_timer_violated`).
43. `dmcr` says of an empty answer file that the problem seems unsatisfiable, and of a cut-off one that it is invalid (`C76_cut_answers_violated`).
44. P a file that is refuted while it is loaded gives exit code 20 but no answer file; the answer file of an earlier run stays and may say
    `s SATISFIABLE` (`C83_stale_answer`). `splr -c proof.drat` overwrites its input, `splr -c -r proof.drat x.cnf` its certificate
    (`C83_proof_overwrites_input`, `C83_answer_overwrites_proof`).
45. P the time limit is cut to whole seconds: `--timeout 0.9` ends the search at the end of the first stage (`C84_violated`).
46. P the path of the input is copied into the comments of the answer file: with a line feed in it `dmcr` panics or reads an answer that stands
    in the path (`C85_violated`).
