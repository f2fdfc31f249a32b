{"id": "C01", "title": "Answer 10 comes with a model", "statement": "Whenever kissat_solve returns 10, the assignment read back with kissat_value satisfies every clause that was passed to kissat_add since kissat_init.", "quantifier": "every finite sequence of added clauses, every option setting that only changes heuristics, every order in which decisions, restarts, clause deletions and inprocessing steps are scheduled", "why_tests_cant": "a test fixes one formula and one schedule; the claim ranges over infinitely many formulas and over every heuristic choice the search may make", "anchors": ["src/internal.c:kissat_solve", "src/internal.c:kissat_value", "src/search.c:kissat_search", "src/propsearch.c:kissat_search_propagate"]}
{"id": "C02", "title": "Answer 20 means unsatisfiable", "statement": "Whenever kissat_solve returns 20, no assignment of the variables satisfies all clauses passed to kissat_add.", "quantifier": "every added formula and every schedule of decisions, conflicts, restarts, reductions and inprocessing steps", "why_tests_cant": "unsatisfiability of the input cannot be observed on sampled runs, and the claim covers all schedules", "anchors": ["src/internal.c:kissat_solve", "src/search.c:kissat_search", "src/analyze.c:kissat_analyze", "src/learn.c:kissat_learn_clause"]}
{"id": "C03", "title": "Proof lines of search are checkable", "statement": "Every clause the search writes to the proof file follows by unit propagation (RUP) from the clauses that have been added and not yet deleted at that point, and a run ending in 20 has written the empty clause.", "quantifier": "every conflict at every decision level, every implication graph, every learned clause including minimised and shrunken ones", "why_tests_cant": "a proof checker validates one run at a time; the property is about every run", "anchors": ["src/proof.c:kissat_add_lits_to_proof", "src/analyze.c:kissat_analyze", "src/deduce.c:kissat_deduce_first_uip_clause", "src/minimize.c:kissat_minimize_clause", "src/learn.c:kissat_learn_clause"]}
{"id": "C04", "title": "Only 0, 10 or 20 is returned, and 0 only on request", "statement": "kissat_solve returns 10, 20 or 0. It returns 0 only if termination was requested or the conflict limit or the decision limit set by the user was reached.", "quantifier": "every run of the search loop, every interleaving with an asynchronous termination request, every limit setting", "why_tests_cant": "asynchronous termination can arrive at any of infinitely many points", "anchors": ["src/search.c:kissat_search", "src/terminate.h:kissat_terminated", "src/search.c:conflict_limit_hit", "src/search.c:decision_limit_hit"]}
{"id": "C05", "title": "kissat_value is a consistent sign function", "statement": "kissat_value(l) is |l|, -|l| or 0 (the literal of the variable of l that is true in the model), it is the same for l and -l, and two calls never return both a literal and its negation. Variables never mentioned give 0.", "quantifier": "every external literal and every reachable solver state", "why_tests_cant": "quantifies over all literals and states", "anchors": ["src/internal.c:kissat_value"]}
{"id": "C06", "title": "kissat_value can be called in any order and repeatedly", "statement": "The first kissat_value query on an eliminated variable triggers model reconstruction; the values returned do not depend on the order or the number of the queries.", "quantifier": "every sequence of kissat_value queries after a satisfiable answer", "why_tests_cant": "the number of query orders is unbounded", "anchors": ["src/internal.c:kissat_value", "src/extend.c:kissat_extend"]}
{"id": "C07", "title": "Adding a clause keeps its meaning", "statement": "After any sequence of kissat_add calls, the clauses, units and inconsistency flag stored in the solver have exactly the models of the clauses passed in: duplicate literals, tautologies, root-satisfied clauses and root-falsified literals are removed without changing the set of models.", "quantifier": "every sequence of literals and clause terminators", "why_tests_cant": "ranges over all clause streams, including arbitrary repetition of literals and units interleaved with clauses", "anchors": ["src/internal.c:kissat_add", "src/import.c:kissat_import_literal", "src/clause.c:kissat_new_original_clause", "src/assign.c:kissat_original_unit"]}
{"id": "C08", "title": "External and internal variables correspond one to one", "statement": "Importing maps distinct external variables to distinct internal variables, exporting is its inverse, and negation commutes with both, however sparse and unordered the external indices are.", "quantifier": "every sequence of imported literals, with and without the tumble option", "why_tests_cant": "the order of first occurrences is unbounded", "anchors": ["src/import.c:kissat_import_literal", "src/import.c:import_literal", "src/inline.h:kissat_export_literal", "src/literal.h"]}
{"id": "C09", "title": "Illegal API calls are rejected before anything changes", "statement": "kissat_add with an invalid literal, kissat_add or kissat_solve after the solver has already been solved, and kissat_solve with an incomplete clause abort with a message and do not modify the solver; every call that satisfies the documented precondition is accepted.", "quantifier": "every API call sequence", "why_tests_cant": "the precondition depends on the whole history of calls", "anchors": ["src/internal.c:kissat_add", "src/internal.c:kissat_solve", "src/internal.c:kissat_value", "src/require.h:kissat_require", "src/require.h:kissat_require_initialized"]}
{"id": "C10", "title": "Termination requests are honoured and consumed", "statement": "After kissat_terminate every later check point of the running search sees the request, so the search returns at its next check point; the flag is cleared when the search stops so the next run starts afresh. A callback installed with kissat_set_terminate is consulted.", "quantifier": "every point in the run at which the request may arrive", "why_tests_cant": "requests are asynchronous", "anchors": ["src/terminate.h:kissat_terminated", "src/internal.c:kissat_terminate", "src/internal.c:kissat_set_terminate", "src/search.c:stop_search"]}
{"id": "C11", "title": "Conflict and decision limits are exact", "statement": "With a conflict limit of c the search stops with 0 at the first loop iteration at which at least c further conflicts have happened, never before; the same holds for decisions; a stopped search clears both limits.", "quantifier": "every limit and every run", "why_tests_cant": "limits interact with every step of an unbounded loop", "anchors": ["src/search.c:conflict_limit_hit", "src/search.c:decision_limit_hit", "src/internal.c:kissat_set_conflict_limit", "src/internal.c:kissat_set_decision_limit"]}
{"id": "C12", "title": "The parser adds exactly the clauses in the file", "statement": "Parsing the DIMACS rendering of any formula (any legal white space, comments, several clauses per line or one clause over several lines) succeeds, reports the header's variable count and passes exactly the rendered literals, in order, to kissat_add (in builds with embedded options: for files without a comment that starts with a dash).", "quantifier": "every formula and every legal layout, in every parsing mode", "why_tests_cant": "layouts and formulas are unbounded", "anchors": ["src/parse.c:kissat_parse_dimacs", "src/parse.c:parse_dimacs"]}
{"id": "C13", "title": "The parser rejects what the strict format forbids", "statement": "In strict mode a literal larger than the header's variable count, more clauses than announced, too few clauses, a missing terminating zero, a zero or leading-zero sign error, or a number larger than the maximum variable index is answered with an error and never with a wrong literal; arithmetic never overflows.", "quantifier": "every input byte sequence and every parsing mode", "why_tests_cant": "all byte sequences", "anchors": ["src/parse.c:parse_dimacs", "src/parse.c:kissat_parse_dimacs"]}
{"id": "C14", "title": "Parse errors name the right line", "statement": "When parsing fails, the reported line number is the number of the line on which the offending character stands.", "quantifier": "every malformed input", "why_tests_cant": "all byte sequences", "anchors": ["src/parse.c:parse_dimacs", "src/parse.c:kissat_parse_dimacs", "src/application.c:parse_input"]}
{"id": "C15", "title": "Reading in blocks is invisible", "statement": "The sequence of characters delivered to the parser, and the byte counter, do not depend on how the input is split into buffer refills or short reads.", "quantifier": "every input and every pattern of block sizes", "why_tests_cant": "all ways of chunking an unbounded input", "anchors": ["src/parse.c:fill_buffer", "src/file.h:kissat_getc"]}
{"id": "C16", "title": "Written DIMACS files mean the same as the solver state", "statement": "Writing the current formula with the DIMACS writer and parsing it again gives a formula with the same satisfiability as the clauses in the solver, and the header counts match the body.", "quantifier": "every solver state at root level", "why_tests_cant": "all states", "anchors": ["src/krite.c:kissat_write_dimacs"]}
{"id": "C17", "title": "Binary proof encoding is uniquely decodable", "statement": "Decoding the bytes of a binary proof returns exactly the sequence of added and deleted clauses that was written; every literal up to the maximum index is encoded in at most five bytes.", "quantifier": "every sequence of proof lines over all legal literals", "why_tests_cant": "all sequences of all legal literals", "anchors": ["src/proof.c:print_binary_proof_line", "src/proof.c:import_external_proof_literal", "src/proof.c:print_added_proof_line", "src/proof.c:print_delete_proof_line"]}
{"id": "C18", "title": "Textual proof encoding is uniquely decodable", "statement": "Parsing the text of a non-binary proof returns exactly the sequence of added and deleted clauses that was written.", "quantifier": "every sequence of proof lines", "why_tests_cant": "all sequences of all legal literals", "anchors": ["src/proof.c:print_non_binary_proof_line", "src/proof.c:print_added_proof_line", "src/proof.c:print_delete_proof_line"]}
{"id": "C19", "title": "Proof buffering loses and reorders nothing", "statement": "The bytes that reach the proof file after the proof is released are exactly the concatenation of the bytes written, for every buffer capacity and every pattern of flushes.", "quantifier": "every sequence of writes and flushes", "why_tests_cant": "the buffer boundary can fall anywhere", "anchors": ["src/proof.c:write_char", "src/proof.c:flush_buffer", "src/proof.c:kissat_release_proof"]}
{"id": "C20", "title": "The witness printout lists the model", "statement": "The 'v' lines printed for a satisfiable answer contain, for each variable up to the maximum, exactly one literal agreeing with kissat_value (don't-cares are printed positively, or left out in partial mode), in increasing order, followed by a single 0, and no line is longer than 78 characters.", "quantifier": "every model and every number of variables", "why_tests_cant": "line breaking depends on the lengths of all previously printed numbers", "anchors": ["src/witness.c:kissat_print_witness", "src/witness.c:print_int"]}
{"id": "C21", "title": "Options can be found exactly by their names", "statement": "kissat_get_option and kissat_set_option find an option iff its name is in the option table; looking up never touches another option.", "quantifier": "every string", "why_tests_cant": "all strings", "anchors": ["src/options.c:kissat_options_has", "src/options.h"]}
{"id": "C22", "title": "Setting an option clamps and reports the old value", "statement": "kissat_set_option returns the previous value, afterwards kissat_get_option returns the given value clamped into the option's range, all other options keep their values, and unknown names change nothing.", "quantifier": "every option, every integer, every sequence of settings", "why_tests_cant": "all integers and all histories", "anchors": ["src/options.c:kissat_options_set_opt", "src/options.c:kissat_options_set", "src/options.c:kissat_options_get"]}
{"id": "C23", "title": "Option values are parsed exactly", "statement": "The value parser accepts exactly true, false, optionally signed decimals (not starting with two zeros), mantissa-exponent 'MeD' and power 'B^E' notation whose value fits, and returns the denoted integer; nothing overflows.", "quantifier": "every string", "why_tests_cant": "all strings", "anchors": ["src/options.c:kissat_parse_option_value"]}
{"id": "C24", "title": "Command line options are interpreted as documented", "statement": "--name=val, --name and --no-name set the named option to val, 1 and 0, and are rejected if the name is unknown or the value is outside of the range.", "quantifier": "every argument string", "why_tests_cant": "all strings", "anchors": ["src/options.c:kissat_options_parse_arg", "src/options.c:kissat_parse_option_name"]}
{"id": "C25", "title": "Configurations set what they claim", "statement": "kissat_set_configuration accepts exactly the documented names and sets exactly the listed options; every other option keeps its value.", "quantifier": "every string and every option state", "why_tests_cant": "all strings and states", "anchors": ["src/config.c:kissat_set_configuration", "src/config.c:kissat_has_configuration"]}
{"id": "C26", "title": "The score heap is a priority queue", "statement": "After any sequence of push, pop, remove and score updates the heap holds exactly the elements pushed and not removed, membership queries are right, and the maximum returned has the largest score of all elements in the heap.", "quantifier": "every operation sequence and all scores", "why_tests_cant": "all histories", "anchors": ["src/inlineheap.h:kissat_push_heap", "src/inlineheap.h:kissat_pop_heap", "src/inlineheap.h:kissat_update_heap", "src/inlineheap.h:kissat_bubble_up", "src/inlineheap.h:kissat_bubble_down", "src/heap.c"]}
{"id": "C27", "title": "The VMTF queue orders variables by last bump", "statement": "After any sequence of enqueue, dequeue and move-to-front operations the doubly linked list contains each enqueued variable exactly once, links are mutually consistent, time stamps strictly increase along the list also after stamp reassignment, and no unassigned variable lies after the search position.", "quantifier": "every operation sequence", "why_tests_cant": "all histories", "anchors": ["src/inlinequeue.h:kissat_enqueue_links", "src/inlinequeue.h:kissat_dequeue_links", "src/inlinequeue.h:kissat_move_to_front", "src/queue.c:kissat_reassign_queue_stamps"]}
{"id": "C28", "title": "Stacks and queues behave like sequences", "statement": "Push, pop, top, clear, resize and element access of dynamic stacks refine the abstract sequence whatever the capacity doublings; the first-in-first-out queue returns elements in insertion order across wrap-arounds and enlargements.", "quantifier": "every operation sequence", "why_tests_cant": "capacity events depend on the whole history", "anchors": ["src/stack.h", "src/stack.c:kissat_stack_enlarge", "src/fifo.h"]}
{"id": "C29", "title": "Watch list vectors never interfere", "statement": "Pushing to, shrinking or removing from one watch list leaves the contents of all other watch lists unchanged and changes its own list as specified, across reuse of free slots, relocation and defragmentation; the free-slot counter is exact.", "quantifier": "every operation sequence on any number of vectors sharing one storage", "why_tests_cant": "interference depends on relative placement created by the history", "anchors": ["src/vector.c:kissat_enlarge_vector", "src/vector.c:kissat_defrag_vectors", "src/inlinevector.h:kissat_push_vectors", "src/vector.c:kissat_remove_from_vector", "src/vector.c:kissat_resize_vector"]}
{"id": "C30", "title": "Comparison sorting sorts", "statement": "The sort macro returns a permutation of its input that is ordered by the comparison.", "quantifier": "every input sequence and every strict weak order", "why_tests_cant": "all inputs of all lengths", "anchors": ["src/sort.h:SORT", "src/sort.h:QUICK_SORT", "src/sort.h:INSERTION_SORT", "src/sort.h:PARTITION"]}
{"id": "C31", "title": "Radix sorting sorts stably", "statement": "The radix sort macro returns a stable permutation of its input ordered by the rank function, including when it skips byte passes.", "quantifier": "every input sequence and every rank function", "why_tests_cant": "all inputs of all lengths", "anchors": ["src/rank.h:RADIX_SORT"]}
{"id": "C32", "title": "Reluctant doubling follows the Luby sequence", "statement": "Restarts in stable mode are triggered after the period times the Luby sequence 1,1,2,1,1,2,4,... and the sequence restarts when the configured maximum is exceeded.", "quantifier": "every number of ticks, every period and maximum", "why_tests_cant": "unbounded sequence", "anchors": ["src/reluctant.c:kissat_tick_reluctant", "src/reluctant.c:kissat_enable_reluctant", "src/reluctant.h:kissat_reluctant_triggered"]}
{"id": "C33", "title": "Random picks stay in range and are reproducible", "statement": "Picking a random number from [l,r) always yields a number in this range and the same seed gives the same sequence; the bit utilities (floor and ceiling logarithm, alignment, powers of two) compute what they claim.", "quantifier": "every seed, every range, every word", "why_tests_cant": "2^64 seeds times all ranges", "anchors": ["src/random.h:kissat_pick_random", "src/utilities.h:kissat_log2_floor_of_uint64", "src/utilities.h:kissat_align_word"]}
{"id": "C34", "title": "Clause references stay valid", "statement": "A clause reference returned by allocation denotes a clause of the requested size with the stored literals until it is collected, no two live clauses overlap, and traversing the arena visits exactly the allocated clauses in order, also after shrinking clauses in place.", "quantifier": "every sequence of allocations and shrink operations", "why_tests_cant": "layout depends on the history", "anchors": ["src/arena.c:kissat_allocate_clause", "src/clause.h:kissat_actual_bytes_of_clause", "src/clause.h:kissat_next_clause", "src/clause.c"]}
{"id": "C35", "title": "Unit propagation is sound", "statement": "Each literal assigned by propagation is a logical consequence of the clauses and the current decisions, its recorded reason clause contains it and otherwise only literals falsified before, and a reported conflict clause is falsified.", "quantifier": "every state reachable by decisions, propagations, conflicts, backtracking and clause deletion", "why_tests_cant": "all reachable states", "anchors": ["src/proplit.h:PROPAGATE_LITERAL", "src/assign.c", "src/inlineassign.h", "src/fastassign.h"]}
{"id": "C36", "title": "Unit propagation misses nothing", "statement": "When propagation finishes without conflict, no clause is falsified and no clause has all but one literal falsified with the remaining one unassigned, also with chronological backtracking and blocking literals; so if all variables are assigned all clauses are satisfied.", "quantifier": "every reachable state", "why_tests_cant": "missed implications show up only on particular histories of watch updates", "anchors": ["src/proplit.h:PROPAGATE_LITERAL", "src/watch.c", "src/backtrack.c", "src/analyze.c:one_literal_on_conflict_level"]}
{"id": "C37", "title": "Backtracking undoes exactly the higher levels", "statement": "Backtracking to a level unassigns exactly the variables assigned on higher levels, keeps the relative order and the reasons of the others, restores the frame stack and makes every unassigned variable available again for decisions.", "quantifier": "every trail including out-of-order trails created by chronological backtracking", "why_tests_cant": "all trails", "anchors": ["src/backtrack.c:kissat_backtrack_without_updating_phases", "src/backtrack.c:unassign", "src/inlineframes.h"]}
{"id": "C38", "title": "Learned clauses follow from the formula", "statement": "The clause derived from a conflict is implied by the clauses in the solver, contains exactly one literal of the conflict level, is falsified by the current assignment, and becomes unit after backtracking to the computed jump level.", "quantifier": "every conflict in every reachable state", "why_tests_cant": "all implication graphs", "anchors": ["src/deduce.c:kissat_deduce_first_uip_clause", "src/deduce.c:analyze_literal", "src/learn.c:kissat_learn_clause", "src/learn.c:kissat_determine_new_level"]}
{"id": "C39", "title": "Clause minimisation and shrinking are sound", "statement": "Removing literals from the learned clause by minimisation, or replacing the literals of one level by their unique implication point, leaves a clause that is still implied and still asserting.", "quantifier": "every implication graph, every order of literals, every depth limit", "why_tests_cant": "all implication graphs, caching of failed attempts depends on order", "anchors": ["src/minimize.c:minimize_literal", "src/minimize.c:kissat_minimize_clause", "src/shrink.c:kissat_shrink_clause", "src/shrink.c:shrink_block"]}
{"id": "C40", "title": "Deleting learned clauses is harmless", "statement": "Reduction only deletes redundant clauses that are not reasons, and garbage collection keeps every other clause up to removal of root-falsified literals and root-satisfied clauses; assignment, reasons and models are unaffected.", "quantifier": "every reachable state and every choice of clauses to delete", "why_tests_cant": "all states", "anchors": ["src/reduce.c:collect_reducibles", "src/reduce.c:mark_less_useful_clauses_as_garbage", "src/collect.c:kissat_sparse_collect", "src/collect.c:sparse_sweep_garbage_clauses"]}
{"id": "C41", "title": "Decisions pick an unassigned variable", "statement": "Whenever some active variable is unassigned, the decision procedure picks an unassigned active variable (the one with the highest score or the most recently bumped one) and a phase, and increases the decision level by one.", "quantifier": "every reachable state with an unassigned variable, every option setting of phases", "why_tests_cant": "all states", "anchors": ["src/decide.c:kissat_next_decision_variable", "src/decide.c:last_enqueued_unassigned_variable", "src/decide.c:largest_score_unassigned_variable", "src/decide.c:kissat_decide"]}
{"id": "C42", "title": "Renumbering variables is invisible", "statement": "Compacting the internal variables keeps every value reported by kissat_value, every clause as seen from outside and the correspondence of all internal tables.", "quantifier": "every set of eliminated, fixed and active variables", "why_tests_cant": "all variable sets", "anchors": ["src/compact.c:kissat_compact_literals", "src/compact.c:kissat_finalize_compacting"]}
{"id": "C43", "title": "Eliminated variables are reconstructed correctly", "statement": "If an assignment satisfies the remaining clauses, then running reconstruction over the recorded witness clauses gives an assignment that satisfies the original clauses as well.", "quantifier": "every sequence of eliminations, substitutions and other clause removals, and every model of the remaining clauses", "why_tests_cant": "reconstruction interacts with all later simplifications", "anchors": ["src/extend.c:kissat_extend", "src/weaken.c:kissat_weaken_clause", "src/weaken.c:kissat_weaken_binary", "src/weaken.c:kissat_weaken_unit"]}
{"id": "C44", "title": "Variable elimination preserves satisfiability", "statement": "Replacing all clauses with a variable by the generated non-tautological resolvents (restricted to gate against non-gate pairs if a gate was found) gives an equisatisfiable formula, and the removed clauses pushed for reconstruction repair every model.", "quantifier": "every clause set, every eliminated variable, every extracted gate", "why_tests_cant": "all formulas", "anchors": ["src/eliminate.c:eliminate_variable", "src/eliminate.c:weaken_clauses", "src/eliminate.c:connect_resolvents", "src/resolve.c:kissat_generate_resolvents", "src/fastel.c"]}
{"id": "C45", "title": "Extracted gates are definitions", "statement": "Whenever gate extraction reports equivalence, AND, if-then-else or semantic definition gate clauses for a literal, those clauses are in the formula and are strong enough that resolving non-gate clauses with each other is unnecessary.", "quantifier": "every clause set and literal", "why_tests_cant": "all formulas", "anchors": ["src/gates.c:kissat_find_gates", "src/ands.c:kissat_find_and_gate", "src/equivalences.c:kissat_find_equivalence_gate", "src/ifthenelse.c:kissat_find_if_then_else_gate", "src/definition.c:kissat_find_definition"]}
{"id": "C46", "title": "Equivalent literal substitution preserves satisfiability", "statement": "Literals in one strongly connected component of the binary implication graph are equivalent; replacing them by their representative gives an equisatisfiable formula, and a component with complementary literals is reported as inconsistency.", "quantifier": "every set of binary clauses and every formula", "why_tests_cant": "all graphs", "anchors": ["src/substitute.c:determine_representatives", "src/substitute.c:substitute_binaries", "src/substitute.c:substitute_clauses", "src/substitute.c:remove_representative_equivalences"]}
{"id": "C47", "title": "Bounded variable addition preserves satisfiability", "statement": "Factoring clauses with a fresh variable gives a formula with the same models on the old variables, and the fresh variable never becomes visible through the API.", "quantifier": "every factoring (factors times quotients) of every formula", "why_tests_cant": "all formulas", "anchors": ["src/factor.c:apply_factoring", "src/factor.c:add_factored_divider", "src/factor.c:add_factored_quotient", "src/factor.c:delete_unfactored", "src/import.c:kissat_fresh_literal"]}
{"id": "C48", "title": "Subsumption and strengthening preserve equivalence", "statement": "Clauses removed by forward or on-the-fly subsumption are implied by a remaining irredundant clause, and strengthened clauses follow from the formula; the set of models is unchanged.", "quantifier": "every formula and every order in which clauses are tried", "why_tests_cant": "all formulas", "anchors": ["src/forward.c:forward_literal", "src/forward.c:forward_subsumed_clause", "src/strengthen.c:kissat_on_the_fly_strengthen", "src/strengthen.c:kissat_on_the_fly_subsume", "src/fastel.c:fast_forward_subsumed"]}
{"id": "C49", "title": "Transitive reduction and backbone extraction preserve equivalence", "statement": "Binary clauses removed by transitive reduction are implied by the remaining clauses, and units derived from binary implication probing (backbone or failed literals) are implied by the formula.", "quantifier": "every binary implication graph and probing order", "why_tests_cant": "all graphs", "anchors": ["src/transitive.c:transitive_reduce", "src/backbone.c:compute_backbone", "src/backbone.c:backbone_analyze", "src/forward.c:remove_duplicated_binaries_with_literal"]}
{"id": "C50", "title": "Vivification preserves equivalence", "statement": "Clauses shortened or removed by vivification are replaced by clauses implied by the formula, and an irredundant clause is removed only if it is implied by the other irredundant clauses.", "quantifier": "every formula and every order of the probed literals", "why_tests_cant": "all formulas", "anchors": ["src/vivify.c:vivify_clause", "src/vivify.c:vivify_deduce", "src/vivify.c:vivify_learn"]}
{"id": "C51", "title": "Congruence closure preserves equivalence", "statement": "Two gate outputs are merged only if they are equivalent in all models of the formula, for AND, XOR and if-then-else gates with rewritten inputs.", "quantifier": "every formula and every merge order", "why_tests_cant": "all formulas", "anchors": ["src/congruence.c:merge_literals", "src/congruence.c:rewrite_and_gate", "src/congruence.c:rewrite_xor_gate", "src/congruence.c:rewrite_ite_gate", "src/congruence.c:find_repr"]}
{"id": "C52", "title": "Lucky assignments are checked", "statement": "A quick answer found by trying constant or unit-propagated assignments is 10 only with an assignment satisfying all clauses and 20 only for an unsatisfiable formula.", "quantifier": "every formula", "why_tests_cant": "all formulas", "anchors": ["src/lucky.c:kissat_lucky"]}
{"id": "C53", "title": "The embedded solver answers correctly and its cores are cores", "statement": "The small embedded solver used for definitions and sweeping returns 10 only with a model of its clauses and assumptions, 20 only if they are inconsistent, and the clausal core it computes is itself inconsistent.", "quantifier": "every clause set, every assumptions, every ticks limit", "why_tests_cant": "all formulas", "anchors": ["src/kitten.c:kitten_solve", "src/kitten.c:kitten_compute_clausal_core", "src/kitten.c:kitten_failed"]}
{"id": "C54", "title": "Exit code and status line agree with the answer", "statement": "The program exits with 10, 20 or 0 exactly if the solver answered satisfiable, unsatisfiable or unknown, and prints the matching 's' line.", "quantifier": "every answer and every command line", "why_tests_cant": "all combinations of options", "anchors": ["src/application.c:run_application", "src/main.c:main", "src/handle.c"]}
{"id": "C55", "title": "Signals are handled once and handlers are restored", "statement": "The first caught signal runs the callback once and then the default action is raised with the original handlers restored; resetting restores exactly the handlers that were installed before.", "quantifier": "every interleaving of installation, reset and signals", "why_tests_cant": "signals are asynchronous", "anchors": ["src/handle.c:kissat_init_signal_handler", "src/handle.c:catch_signal", "src/handle.c:kissat_reset_signal_handler", "src/handle.c:kissat_init_alarm"]}
{"id": "C56", "title": "Compressed inputs are recognised safely", "statement": "A path is piped through a decompressor only if it has the corresponding suffix and the file starts with the corresponding signature, otherwise it is read as plain text.", "quantifier": "every path and every file content", "why_tests_cant": "all paths and contents", "anchors": ["src/file.c:kissat_open_to_read_file", "src/file.c:match_signature", "src/utilities.c:kissat_has_suffix"]}
{"id": "C57", "title": "The internal checker accepts only implied clauses", "statement": "The built-in proof checker accepts a clause only if it is implied by unit propagation from the clauses it holds, and removal of a clause finds exactly that clause up to order of literals.", "quantifier": "every sequence of add and remove operations", "why_tests_cant": "all sequences", "anchors": ["src/check.c:kissat_check_and_add_clause", "src/check.c:kissat_remove_checker_clause", "src/check.c:checker_propagate"]}
{"id": "C58", "title": "Local search and warm-up only change saved phases", "statement": "Random walk and warm-up change only decision phases; clauses, root assignment and answers are unaffected, and the number of broken clauses the walk reports is the number of clauses falsified by its best assignment.", "quantifier": "every formula, every random seed", "why_tests_cant": "all seeds and formulas", "anchors": ["src/walk.c:kissat_walk", "src/warmup.c:kissat_warmup"]}
{"id": "C59", "title": "Trail, levels and reasons stay consistent", "statement": "In every reachable state each assigned literal occurs exactly once on the trail (or is a flushed root unit), no literal is assigned together with its negation, decision levels never exceed the current level and each level's control frame names its decision.", "quantifier": "every reachable state", "why_tests_cant": "all histories", "anchors": ["src/trail.c", "src/inlineassign.h:kissat_assign", "src/backtrack.c", "src/frames.h"]}
{"id": "C60", "title": "New variables of bounded variable addition keep the decision queue consistent", "statement": "When bounded variable addition introduces fresh variables they are put at the low-priority end of the decision queue, time stamps still increase strictly along the queue, and later decisions still find an unassigned variable whenever there is one.", "quantifier": "every number of fresh variables, every queue and every later sequence of assignments and unassignments", "why_tests_cant": "depends on which variables are unassigned after which backtracking; wrong stamps only show in rare orders", "anchors": ["src/factor.c:adjust_scores_and_phases_of_fresh_varaibles", "src/backtrack.c:add_unassigned_variable_back_to_queue", "src/decide.c:last_enqueued_unassigned_variable"]}
{"id": "C61", "title": "Comments before the header end at the end of their line", "statement": "A comment line before the header has no effect besides setting the option it names, if embedded options are enabled: the lines after it are read as if the comment was not there.", "quantifier": "every input file and parsing mode, with and without embedded options", "why_tests_cant": "all byte sequences, in particular malformed option comments", "anchors": ["src/parse.c:parse_dimacs"]}
{"id": "C62", "title": "Learned clauses kept by inprocessing follow from the irredundant clauses", "statement": "After any sequence of simplification techniques every model of the irredundant clauses extends to a model of all clauses the solver still holds, learned ones included, without changing the value of a variable which was not eliminated; so forgetting learned clauses never adds models, and using the learned clauses which do not mention eliminated variables never loses one.", "quantifier": "every input formula, every sequence of techniques and all heuristic choices", "why_tests_cant": "eliminations remove irredundant clauses from which kept learned clauses were derived; a lost model only shows on particular interleavings", "anchors": ["src/weaken.c", "src/eliminate.c:kissat_eliminate", "src/dense.c:kissat_resume_sparse_mode", "src/factor.c", "src/vivify.c", "src/substitute.c"]}
{"id": "C63", "title": "Sweeping only learns units and equivalences which hold", "statement": "Sweeping copies clauses to a small embedded solver and asks it for literals which are always true and for pairs of literals which always have the same value. What it learns, and the replacement of equivalent literals in all clauses, changes neither the satisfying assignments of the remaining clauses nor the answer; no variable is added or eliminated; the lines copied from the refutations of the embedded solver into the proof are accepted by a checker.", "quantifier": "every input formula, every state reached by other techniques before, every choice of variables, copied clauses and candidates, and every sequence of decisions and limits in the embedded solver", "why_tests_cant": "a wrong equivalence only shows on formulas where the candidate survives refinement although it does not hold, and lines missing in the proof only where a core uses lemmas of earlier calls", "anchors": ["src/sweep.c:kissat_sweep", "src/sweep.c:sweep_variable", "src/sweep.c:sweep_equivalence_candidates", "src/sweep.c:substitute_connected_clauses", "src/kitten.c:kitten_compute_clausal_core", "src/kitten.c:kitten_trace_core"]}
{"id": "C64", "title": "Definitions found by the embedded solver really define the variable", "statement": "During variable elimination the solver asks a small embedded solver whether a variable is functionally defined by the clauses it occurs in. Whenever clauses are reported as a definition, the value of the variable is determined by the other variables in these clauses, or the variable is a consequence; units derived this way and the lemmas copied to the proof are accepted by a proof checker, and eliminating variables with such definitions keeps satisfiability.", "quantifier": "every input formula, every state reached by other techniques before, every order of elimination, and every sequence of decisions, limits, random shuffles and number of core reductions in the embedded solver", "why_tests_cant": "cores and their reductions differ with every formula, limit and shuffle; a core clause missing in a report only shows if the dropped resolvents matter", "anchors": ["src/definition.c:kissat_find_definition", "src/definition.c:traverse_one_sided_core_lemma", "src/kitten.c:kitten_compute_clausal_core", "src/kitten.c:kitten_shrink_to_clausal_core", "src/kitten.c:kitten_shuffle_clauses", "src/kitten.c:kitten_traverse_core_ids", "src/resolve.c:generate_resolvents"]}
{"id": "C65", "title": "Extension variables have legal numbers", "statement": "When the solver introduces variables of its own (bounded variable addition), they get numbers that are not used yet and at most 2^30 - 1, the largest variable allowed in the interface, so that everything written to the proof or to a formula file consists of legal literals. If no number is left, no variable is introduced.", "quantifier": "every input formula, every state reached by other techniques before, and every schedule of bounded variable addition", "why_tests_cant": "the boundary needs formulas which use the largest possible variable", "anchors": ["src/import.c:kissat_fresh_literal", "src/factor.c:apply_factoring", "src/literal.h:EXTERNAL_MAX_VAR"]}
{"id": "C66", "title": "Numbers in messages are right", "statement": "The texts printed for counts, numbers of bytes, ordinal numbers, times and option values denote the number they stand for (up to rounding where this is documented by the unit), never overflow their buffer, and stay valid while up to sixteen of them are used in one message. The line printed for an option with its value is accepted again as a command line argument with the same meaning.", "quantifier": "every 64-bit number, every option value in its range, and every sequence of conversions", "why_tests_cant": "the texts go through a ring of sixteen fixed-size strings, so length and reuse depend on all numbers and on the history of conversions", "anchors": ["src/format.c:kissat_next_format_string", "src/format.c:kissat_format_count", "src/format.c:kissat_format_bytes", "src/format.c:kissat_format_time", "src/format.c:kissat_format_ordinal", "src/format.c:kissat_format_value", "src/options.c:kissat_print_option_range"]}
{"id": "C67", "title": "Blocks of memory have the size asked for and are accounted for", "statement": "A request for an array either gives a block of exactly the number of elements times the element size, or stops the program; it never gives a smaller block because the product wraps around. The reported current number of allocated bytes is the sum of all live blocks, the reported maximum is the largest sum there has been, and at release a leak is reported exactly if some block was not given back, provided callers only give back or resize what they have.", "quantifier": "every history of allocation, release and resize requests with arbitrary 64-bit arguments, and every behaviour of the C library within its contract", "why_tests_cant": "overflow needs huge arguments, and the counters depend on the whole history", "anchors": ["src/allocate.c:kissat_malloc", "src/allocate.c:kissat_free", "src/allocate.c:kissat_nalloc", "src/allocate.c:kissat_calloc", "src/allocate.c:kissat_dealloc", "src/allocate.c:kissat_realloc", "src/allocate.c:kissat_nrealloc", "src/internal.c:kissat_release"]}
{"id": "C68", "title": "Useful learned clauses are retained", "statement": "When the solver throws away learned clauses it never throws away a clause of the input, a clause which is the reason of a current assignment, a clause with glue at most the first limit that was used in conflict analysis since its counter ran out, or a clause with glue at most the second limit that was used recently. A clause of the first tier survives at least 31 reductions after it was learned or last used, a clause of the second tier at least two. Of the candidates exactly as many as intended are thrown away, those with larger glue first, then longer ones, then older ones; all other clauses stay as they are.", "quantifier": "every set of clauses with any glue, size and use counters, all limits, every intended number, every content of uninitialised sorting memory, and every history of learning, using, marking reasons and reducing", "why_tests_cant": "the choice depends on bit-field arithmetic, a radix sort with uninitialised temporary memory and on counters that age over arbitrarily long histories", "anchors": ["src/reduce.c:collect_reducibles", "src/reduce.c:sort_reducibles", "src/reduce.c:mark_less_useful_clauses_as_garbage", "src/reduce.c:kissat_reduce", "src/deduce.c:mark_clause_as_used", "src/clause.c:new_large_clause", "src/trail.c:kissat_mark_reason_clauses"]}
{"id": "C69", "title": "Glue limits follow the recorded usage of clauses", "statement": "The solver counts how often learned clauses of each glue are used in conflict analysis, separately for its two search modes. When it recomputes its two glue limits, the first is the smallest glue up to which the share of uses given by option tier1relative is reached and the second the smallest one for tier2relative; without uses they are the values of tier1 and tier2, and the first limit is never larger than the second. The limits computed are those in effect afterwards. The table of usage printed in the statistics covers all glues between the limits exactly once with their numbers of uses, accumulated numbers, marks at the limits and aligned columns.", "quantifier": "every history of uses with any glues in any mode, all option values, any way the shares are rounded", "why_tests_cant": "depends on arbitrary distributions of 128 counters and on histories of switches between modes", "anchors": ["src/tiers.c:compute_tier_limits", "src/tiers.c:kissat_compute_and_set_tier_limits", "src/tiers.c:kissat_print_tier_usage_statistics", "src/deduce.c:mark_clause_as_used", "src/internal.h:TIER1", "src/internal.h:TIER2", "src/search.c:init_tiers"]}
{"id": "C70", "title": "Reordering makes heavy variables the next decisions", "statement": "When decision variables are reordered between conflicts, each variable gets a weight computed from the clauses which are not satisfied: every irredundant large clause counts one for two unassigned literals and half of it for each further one up to option reordermaxsize, every binary clause counts one, and the weight of a variable is the larger sum of its two literals plus twice the smaller one. Computing the weights never reads memory out of bounds or not initialised. In focused mode the decision queue is sorted by weight afterwards, where ties keep their order, and the next decision is an unassigned variable of largest weight. In stable mode the weight is added to the rescaled score of each active variable, and the next decision is the unassigned variable with the largest result. Nothing else changes.", "quantifier": "every state in which the search can reorder (root level, after propagation without conflict), after any history of library calls, search and inprocessing, any decision queue and scores, every value of reordermaxsize, any rounding of additions", "why_tests_cant": "the table of clause weights is only initialised for two or more unassigned literals, so safety depends on propagation being complete in every reachable state; in-place reuse of one array for literals and variables", "anchors": ["src/reorder.c:compute_weights", "src/reorder.c:less_focused_order", "src/reorder.c:less_stable_order", "src/reorder.c:sort_active_variables_by_weight", "src/reorder.c:reorder_focused", "src/reorder.c:reorder_stable", "src/reorder.c:kissat_reorder"]}
{"id": "C71", "title": "Stable mode repeats the largest assignment found", "statement": "Whenever the solver is about to undo assignments in stable mode (outside of probing), the assignment counts. The target phases are at any time the values of the largest assignment counted since phases were last reset (the first one among those of equal size), for every variable it assigns, and decisions in stable mode use these values if option target is set and forcephase is not. The best phases are those of the largest assignment counted since phases were last reset to best ones. Phases are reset in turns to the best ones, the result of local search, the inverted initial phase, the best ones, the result of local search and the initial phase; the saved phases and with them the target phases become exactly these (variables without best phase keep the saved one). Otherwise the saved phase of a variable is the value it was assigned last outside of probing. No access is out of range.", "quantifier": "every number of variables, every history of assignments, backtracking, resets, local search, changes of mode, removal and return of variables; size counts removed variables too; between renumberings of variables", "why_tests_cant": "a statement on maxima over arbitrary histories; a phase overwritten by a smaller assignment only slows down the search and is not visible in results", "anchors": ["src/backtrack.c:kissat_update_target_and_best_phases", "src/phases.c:save_phases", "src/phases.c:kissat_save_target_phases", "src/phases.c:kissat_save_best_phases", "src/rephase.c:reset_phases", "src/rephase.c:rephase_best", "src/rephase.c:rephase_inverted", "src/rephase.c:rephase_original", "src/rephase.c:rephase_walking", "src/inlineassign.h:kissat_assign", "src/decide.c:kissat_decide_phase"]}
{"id": "C72", "title": "Restarts keep exactly the decisions which would come first again", "statement": "A restart keeps the longest sequence of decisions from the first one on which have higher priority (larger score in stable mode, later in the queue in focused mode) than the next decision variable; without random decisions all of these have higher priority than every variable without value. Exactly the assignments of these levels stay, or those of the root level if option restartreusetrail is unset, and no clause changes. There is no restart on the root level or if restarts are disabled, and after a restart in focused mode none during the next restartint conflicts.", "quantifier": "every state in which the search can restart (after propagation without conflict, with unassigned variables), after any history of library calls, search and inprocessing, any decision queue and scores; every history of conflicts, tests, mode switches and searches", "why_tests_cant": "which levels are kept only influences speed; safety depends on the frames, the queue and the heap agreeing with the trail in every reachable state", "anchors": ["src/restart.c:kissat_restarting", "src/restart.c:kissat_update_focused_restart_limit", "src/restart.c:reuse_stable_trail", "src/restart.c:reuse_focused_trail", "src/restart.c:reuse_trail", "src/restart.c:kissat_restart", "src/decide.c:kissat_next_decision_variable"]}
{"id": "C73", "title": "Messages are comment lines", "statement": "All messages, sections, phases, warnings and progress reports the solver prints on standard output are complete lines which start with the letter c, alone or followed by a space, so that the status line and the witness are the only other lines. With option quiet nothing of these is printed, and verbose messages only with option verbose. Printing never writes beyond a buffer.", "quantifier": "every sequence of messages and reports, all texts, counters and options, output to a terminal or not", "why_tests_cant": "texts and counters are unbounded; buffers of reports only overflow in very long runs", "anchors": ["src/print.c:print_message", "src/print.c:kissat_warning", "src/print.c:kissat_signal", "src/print.c:kissat_message", "src/print.c:kissat_section", "src/print.c:kissat_phase", "src/print.c:kissat_verbose", "src/report.c:kissat_report", "src/colors.h:COLOR"]}
{"id": "C74", "title": "Moving averages are weighted means of their mode", "statement": "The averages of glue and of decisions per conflict which decide about restarts in focused mode and about bumping are, up to rounding, the exponentially weighted means of the values seen in the same search mode since the start, without influence of an initial value or of the other mode. So they lie between the smallest and the largest value, and a restart is due if and only if the mean of recent glues exceeds the long term mean by the margin given as option. If all glues are equal, restarts are never due with a positive margin.", "quantifier": "all histories of decisions, conflicts, learned clauses and changes of mode, all windows and margins", "why_tests_cant": "histories are unbounded, and errors in the bias correction vanish in long runs", "anchors": ["src/smooth.c:kissat_init_smooth", "src/smooth.c:kissat_update_smooth", "src/averages.c:kissat_init_averages", "src/analyze.c:update_decision_rate_average", "src/learn.c:kissat_update_learned", "src/mode.c:kissat_switch_search_mode", "src/restart.c:kissat_restarting"]}
{"id": "C75", "title": "Focused and stable mode alternate with balanced effort", "statement": "With option stable=1 search starts in focused mode and alternates between focused and stable mode. The first focused phase takes at least modeinit conflicts, later ones a number which depends on modeint and the number of phases, and every stable phase takes at least as many ticks (propagation effort) as the focused phase before it. A phase ends at the first test at which this holds. With stable=0 the search stays in focused mode, with stable=2 in stable mode.", "quantifier": "all searches, sequences of conflicts, ticks and tests, all options", "why_tests_cant": "the lengths of phases depend on the whole history; the third and later phases need long runs", "anchors": ["src/mode.c:kissat_init_mode_limit", "src/mode.c:update_mode_limit", "src/mode.c:switch_to_focused_mode", "src/mode.c:switch_to_stable_mode", "src/mode.c:kissat_switching_search_mode", "src/mode.c:kissat_switch_search_mode", "src/search.c:start_search"]}
