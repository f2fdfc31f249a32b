# Formal model of kissat in Lean 4

Subject: arminbiere/kissat 4.0.1, sources in `/repo/src` (C99).  The model is
hand written: every definition cites the file and the lines it models and says
where it simplifies.

## Trusted base

* Lean's kernel (4.33.0).  No `native_decide`, `bv_decide`, `sorry`, `admit`, no
  axioms added.  Theorems may depend on `propext`, `Classical.choice` and
  `Quot.sound` only.  `lean/Verif/Audit.lean` prints the axioms of every
  property theorem during the build.
* The hand translation from C to Lean.  There is no verified C semantics in the
  loop: that a Lean definition says the same as the cited C lines is checked by
  reading only.
* The specifications in `lean/Verif/Spec/*.lean`: CNF semantics, entailment, RUP
  and RAT, sortedness and so on.  They do not mention solver data structures.

General simplifications, not repeated at every definition:

* C `unsigned`/`size_t` values are `Nat` unless the property is about wrap
  around or overflow, in which case the bounds are explicit hypotheses or the
  arithmetic is done modulo 2^32 / 2^64.
* Arrays are functions or lists with explicit sizes.  In the models of the
  solver memory allocation never fails (the allocation functions have a model of
  their own, see C67); statistics counters, logging, profiling and verbose
  messages are not modelled, except for the conversion of numbers to text (C66).
* `assert`s are not part of a release build, so they are not executed by the
  model.  Some are proved as invariants.
* Heuristics (which variable is decided, when to restart, which clauses are
  dropped, effort limits) are oracle arguments: theorems quantify over all
  their values, so they hold for the choices kissat makes.
* Floating point: scores are elements of an arbitrary linear order.

## Layout

* `Verif/Spec/*.lean` – CNF, assignments, satisfaction, unit propagation
  derivability, RUP, RAT, DRAT proofs (and the proof that the latter are sound).
* `Verif/Model/*.lean` – the functions of the code.
* `Verif/Proofs/*.lean` – lemmas.
* `Verif/Props/*.lean` – the property theorems with satisfiability examples.

## What is modelled

| Part | Sources | Model |
|---|---|---|
| API | `internal.c`, `import.c`, `inline.h`, `flags.c`, `require.h`, `resize.c` | `Api.lean` |
| search | `assign.c`, `inlineassign.h`, `fastassign.h`, `proplit.h`, `propsearch.c`, `propbeyond.c`, `backtrack.c`, `analyze.c`, `deduce.c`, `minimize.c`, `shrink.c`, `learn.c`, `decide.c`, `search.c`, `reduce.c`, `rephase.c`, `warmup.c`, `trail.c`, `watch.c` | `Core/*.lean`, `Reach.lean`, `WholeReach.lean` |
| decision heuristics | `queue.*`, `heap.*`, `bump.c`, `mode.c` | `Queue.lean`, `Heap.lean`, `Decide.lean` |
| search together with queue and heap | `search.c`, `backtrack.c`, `inlineassign.h`, `decide.c`, `restart.c`, `warmup.c`, `flags.c` | `Core/Joint.lean` |
| lucky phases | `lucky.c` | `Lucky.lean` |
| local search | `walk.c` | `Walk.lean` |
| elimination | `eliminate.c`, `resolve.c`, `gates.c`, `ands.c`, `equivalences.c`, `ifthenelse.c`, `definition.c`, `forward.c`, `strengthen.c`, `dense.c`, `propdense.c`, `fastel.c`, `weaken.c` | `Simp/{State,Dense,Gates,Resolve,Eliminate,Forward,Fastel}.lean` |
| probing | `substitute.c`, `transitive.c`, `backbone.c`, `proprobe.c`, `vivify.c`, `factor.c`, `congruence.c`, `sweep.c` | `Simp/{Scc,Substitute,Probe,Vivify,Factor,Closure,Congruence,Sweep,SubSolver}.lean` |
| any sequence of these | `probe.c`, `preprocess.c`, `eliminate.c` | `Simp/Run.lean` |
| `kissat_solve` as a whole | `search.c`, `internal.c`, `dense.c`, `watch.c` | `Whole.lean` |
| extension of models | `extend.c`, `internal.c` | `Extend.lean`, `ExtendHistory.lean` |
| renumbering | `compact.c` | `Compact.lean` |
| sub-solver | `kitten.c` | `Kitten.lean`, `KittenRun.lean` |
| proof checker | `check.c` | `Check.lean` |
| input and output | `parse.c`, `krite.c`, `proof.c`, `witness.c`, `file.c` | `Parse.lean`, `WriteDimacs.lean`, `ProofWriter.lean`, `Witness.lean`, `File.lean`, `Printf.lean` |
| application | `application.c`, `main.c`, `handle.c`, `options.*`, `config.c` | `Application.lean`, `Handle.lean`, `Options.lean`, `OptionTable.lean` |
| containers, arithmetic | `stack.h`, `fifo.h`, `vector.*`, `arena.*`, `clause.*`, `sort.h`, `rank.h`, `reluctant.*`, `random.h`, `utilities.*` | `Containers/*.lean`, `Reluctant.lean`, `Bits.lean` |
| numbers in messages | `format.c` | `Format.lean` |
| allocation | `allocate.c` | `Allocate.lean` |
| choice of learned clauses to throw away | `reduce.c`, `deduce.c`, `trail.c` | `Reduce.lean` |
| glue limits, table of usage | `tiers.c`, `deduce.c`, `search.c` | `Tiers.lean` |
| reordering of decision variables | `reorder.c` | `Reorder.lean` |
| phases, rephasing | `phases.c`, `rephase.c`, `backtrack.c`, `inlineassign.h` | `Phases.lean` |
| restarts | `restart.c`, `decide.c` | `Restart.lean` |
| moving averages | `smooth.c`, `averages.c`, `analyze.c`, `mode.c` | `Averages.lean` |
| search modes | `mode.c`, `search.c` | `Mode.lean` |
| messages, progress reports | `print.c`, `report.c`, `colors.h` | `Print.lean` |

Not modelled:

* Purely heuristic code whose results are oracles above:
  `kimits.c`, `classify.c`, `promote.c`.
* Output and bookkeeping: `statistics.c`, `profile.c`, `logging.c`, `dump.c`,
  `resources.c`, `build.c`, `error.c`.
* Memory layout of clauses in the solver models: references are list indices; garbage clauses stay in the list until they are collected.
* `kissat_sparse_collect` (`collect.c`, `sort.c`) is modelled in `Core/Collect.lean` and is part of `kissat_reduce` in the search
  loop, on any decision level.  Dense collection is modelled as flushing watch lists.
* Renumbering of variables (`compact.c`) has a model of its own which is not part of `Whole.lean`.
* Sub-solver calls: `sweep.c` and `definition.c` take the answers of the sub-solver as parameters, with a hypothesis on cores, which
  is proved for the model of `kitten.c` as called there (`C63_subsolver`, `C64_subsolver`).
* In `sweep.c` choice of flipped literals, refinement of candidates and the schedule: candidates are arbitrary in the model.

`Whole.lean` composes them: a search state is translated to a state of the simplification models and back.  These
translations stand for `kissat_enter_dense_mode`, `kissat_resume_sparse_mode` and the flushing and reconnecting of
watches.  Which techniques run, in which order, how often and with what effort is not fixed, so the theorems hold for the schedule of
`probe.c`, `eliminate.c` and `preprocess.c`.

`Core/Joint.lean` runs an iteration of the search loop together with queue and heap.  The calls made by the search are
those for the variables whose value changed, in any order within the groups unassign, assign, remove; bumping comes anywhere between.
It covers the search loop.  Techniques which change the set of variables between iterations are not part of it:
`C37_C41_linked` says that some state of queue and heap fits every state of the solver, not that it is the one the code has then.

## Plan per property

| Property | Model | Proof |
|---|---|---|
| C01, C02 | CDCL state (values, trail, frames, watches, arena, reasons) with the functions of `assign`, `proplit.h`, `backtrack`, `analyze`, `deduce`, `learn`, `decide`, `search`; heuristics are oracles | invariants by induction over loop iterations: entailment of all clauses, trail, reason and watch invariants; reconstruction for the composed answer |
| C03 | proof line emission of the same functions | learned clauses are RUP through the reason clauses in trail order |
| C04, C10, C11 | `kissat_search` loop with its check points, termination flag and limits | case analysis and induction over the loop; the `kissat_set_terminate` part is false of the code (the callback is stored and never called): negation with a witness and a `_partial` theorem |
| C05, C06 | `kissat_value`, `kissat_extend` | case analysis on import state, idempotence of lazy extension |
| C07, C08, C09 | `kissat_add`, `kissat_import_literal`, `kissat_require*` | induction over the stream of literals; invariant of the import table |
| C12–C15, C61 | `parse.c` character by character over a list of bytes; `fill_buffer` with block oracle | equivalence with a grammar in `Spec/Dimacs.lean`; C14 is false of the code (line counter is not written back on most error paths): witness and partial theorem |
| C16 | `krite.c` | round trip through the parser model; false when there are root units or inconsistency, witness and `_partial` |
| C17–C19 | `proof.c` encoders and buffer | decoder written in the spec, round trip by induction |
| C20 | `witness.c` | induction over variables; line length invariant |
| C21–C25 | `options.c`, `options.h` table, `config.c` | binary search over a sorted table, grammar as inductive predicate |
| C26 | `heap.h`, `heap.c`, `inlineheap.h` on arrays | heap order and position invariant, refinement to a finite set with maximum |
| C27, C60 | `queue.h`, `queue.c`, `inlinequeue.h`, fresh variables of `factor.c`; calls from `flags.c`, `backtrack.c`, `bump.c`, `mode.c`, `decide.c` (`Model/Decide.lean`) | refinement of the linked list to a list, invariant over all call sequences |
| C28, C29 | `stack.h`, `fifo.h`, `vector.c`, `inlinevector.h` | refinement to lists |
| C30, C31 | `sort.h`, `rank.h` | permutation and order; counting sort passes are stable |
| C32, C33 | `reluctant.c`, `random.h`, `utilities.h` | arithmetic |
| C34 | `arena.c`, `clause.[ch]` | layout invariant |
| C35–C41, C59 | core CDCL model | invariants |
| C42 | `compact.c` | renaming lemma |
| C43–C51 | `weaken.c`, `extend.c`, `resolve.c`, `eliminate.c`, gates, `substitute.c`, `factor.c`, `forward.c`, `strengthen.c`, `transitive.c`, `backbone.c`, `vivify.c`, `congruence.c` | per technique: model preservation or reconstruction |
| C52 | `lucky.c` | search invariants |
| C53 | `kitten.c` | own invariants |
| C54–C56 | `application.c`, `main.c`, `handle.c`, `file.c` | decision logic |
| C57 | `check.c` | unit propagation soundness |
| C58 | `walk.c`, `warmup.c` | frame conditions, counters |
| C63 | `sweep.c` with `kitten.c` as sub-solver | cores of the sub-solver are chains of unit propagation lemmas from clauses of the solver; substitution keeps models given the two binary clauses |
| C64 | `definition.c` with `kitten.c` as sub-solver | histories of calls (init, clauses, solve, core, shrink, shuffle, …) end in a core whose lemmas are a refutation by unit propagation |
| C65 | `kissat_fresh_literal` and `factor.c` | the size of the import table over the loops; false at the boundary: symbolic evaluation for any number of variables |
| C66 | `format.c`, texts as lists of bytes, the ring of strings as a function with an index | denotation of texts in `Spec/NumberText.lean`; digits and lengths by induction; false for `INT_MAX` and for times below half a second in a used ring: witnesses |
| C67 | `allocate.c`, the C library as an oracle with a contract, counters with 64 bits | invariant over histories of calls against a ledger of blocks (`Spec/Ledger.lean`) |
| C68 | candidates, ranks, radix sort and marking in `reduce.c` as one function; histories of events | ranks compare as glue and size, stability of the sort (C31), counters as invariant over histories (`Spec/Retention.lean`) |
| C69 | counters, both loops of `compute_tier_limits`, effect of the macros, both loops printing the table; shares as oracles | the loops find least glues, the table equals the list of rows in `Spec/Tiers.lean` |
| C70 | `reorder.c` statement by statement over abstract numbers; table entries not written and accesses out of range are failures | completeness of root propagation (C36) gives two unassigned literals, folds of additions, invariant of the in-place loop, sorting (C30), queue and heap (C27, C41) |
| C71 | `phases.c`, `rephase.c` and the parts of assignment and backtracking they depend on, as calls in arbitrary order | induction on histories: counters bound the sizes of all assignments counted, arrays are written only when a counter grows |
| C72 | `restart.c`; averages and the reluctant sequence as oracles | loop finds the longest prefix, queue and heap invariants (C27, C26, C41), backtracking (C37); bound on the limit as invariant over histories |
| C73 | `print.c`, `report.c` as functions to bytes; formatted texts as arguments | comment lines are closed under concatenation; bound on how far header rows exceed the line of values; false in general (findings 34-36) |
| C74 | `smooth.c`, `averages.c` over rational numbers; events of the search | closed form of the biased average and of the correction, as invariant over histories for both modes; bounds on weighted sums |
| C75 | limits of `mode.c` as a state machine with events of the search | marks where modes changed, agreement of limits with marks as invariant over histories |
| C62 | models of the simplification techniques | invariant: redundant clauses follow from irredundant ones after eliminated variables get suitable values |

## Not expressible

Running time, memory use, and the quality of heuristics are not modelled.

## Findings in the code

Properties that are false of the code, with the theorem that shows it, and smaller observations made while modelling.

1. The function registered with `kissat_set_terminate` is stored and never called
   (`C10_callback_ignored`).
2. The guard against solving twice looks at the number of searches, which is not
   incremented if the instance is already inconsistent or the search is not
   entered (`C09_second_solve_accepted`).
3. A clause without terminating zero is not noticed by `kissat_solve` if all its
   literals are fixed (`C09_incomplete_clause_accepted`): only the internal clause
   buffer is tested.
4. A termination request pending when `kissat_solve` is called makes it return 0
   without clearing request and limits (`C10_request_not_consumed`).
5. Conflict and decision limits are not exact (`C11_not_at_first_iteration`): the
   tests come last in an `else if` chain, after reduction, restart, mode switch.
6. `0^2` as option value divides by zero (`C23_zero_power_divides_by_zero`).
7. `--name` for an integer option with minimum above 1 is accepted and clamped
   (`C24_below_minimum_accepted`).
8. Bounded variable addition puts fresh variables at the start of the decision queue in
   reverse order while numbering their time stamps upwards (factor.c:866-884), so with two
   or more of them stamps decrease along the queue (`C60_stamps_decrease`).  The test
   `stamp > search.stamp` when a variable is unassigned (backtrack.c:25) then moves the
   search position to the wrong variable.  In the model there is a sequence of
   assignments, decisions and unassignments after which the next decision reads the links
   of `DISCONNECT` (`C60_decision_out_of_bounds`).  Iterations of the search loop can produce
   such a sequence (`C60_search_out_of_bounds`), from a queue with five fresh variables and with the option `--bump=0`.  Not
   established: that bounded variable addition produces the clauses of this witness, and that it happens with bumping, which
   moves the variables of a conflict to the other end of the queue and usually repairs the order.
9. Most parse errors are reported for line 1 whatever the line is (`C14_wrong_line`,
   `C14_line_one`): parse.c:75 copies the line number to a local variable, which is only
   written back by `NONL` and on success.
10. With embedded options (`configure --embedded` and debugging builds) a comment such as
   `c -` or `c --name=` swallows the following line, because the code jumps behind the loop
   condition that tests for the new-line it has just read (parse.c:125-126, 160-161, 203):
   `C61_comment_swallows_line`.
11. In relaxed parsing mode the maximum variable is the one of the header even if larger variables occur, so the witness
   printed by the application omits them.
12. After elimination, adding a clause with an eliminated variable imports `INVALID_LIT` and accesses arrays out of
   bounds.  The check that would reject the call counts searches only (see 2).
13. `application.c`: `time_option` is never assigned, so repeated `--time` options are not detected.
14. `kissat_write_dimacs` omits units and the empty clause (`C16_units_missing`, `C16_satisfiability_lost`).
15. `kissat_reserve` without `tumble` after a unit was added activates a fixed variable again.
16. Option values: `0^05` is rejected though it denotes 0; `01` is accepted.
17. `fastel.c:123-131` has a second `q--` and marks a clause as garbage twice on a path that is not reachable; `fastel.c:861` uses
   `LIT (pivot)` where `NOT (lit)` is meant, which affects only a score.
18. Garbage collection in `reduce.c` above the root level, with a trail that is out of order, may leave a clause with a false and an unassigned
   watch and all other literals false after backtracking, so that a propagation is missed: `rewatch_clauses` sorts literals by value and level, but with
   chronological backtracking a literal of a lower level may have a higher trail position (`C36_missed_after_collection`).
   Consequence (`C36_C59_root_conflict_ignored`): in a search with collections `kissat_rephase` can find a conflict on the root level in
   `kissat_backtrack_propagate_and_flush_trail`, where the code only has `assert (!conflict)`.  Without assertions (the default
   of `configure`) the solver goes on with `inconsistent` set.  What is and is not established:
   * proved: the violation of the assertion, for a model in which heuristics (decisions, restarts, selection of clauses to
     reduce, rephasing) are arbitrary, with `chronolevels=1`, `eagersubsume=0` and `otfs` off; the formula of the witness is
     unsatisfiable.
   * not established: that the heuristics of kissat ever make these choices, with these or with default options.  Nothing was run.
   * proved (`C01_conflict_again`): the conflict is not lost if search just goes on, the next propagation finds a conflict again.
     `kissat_reduce`, `kissat_probe` and `kissat_eliminate` return 20 for an inconsistent solver.
   * read from the code, not modelled: if rephasing uses local search, warm-up skips the literals that are still to be
     propagated, and `kissat_resume_sparse_mode` returns early for an inconsistent solver, so that watch lists are
     left in the state of local search.  What the solver answers then is open; a wrong answer 10 is not excluded.
   The model follows the build without assertions: the answer is 20, and local search on an inconsistent solver is `stuck`.
   This is the only way to get stuck (`C04_results`) and it happens (`C04_C58_local_search_after_conflict`).
   Hence the theorems about answers, proofs and states of the search cover runs with any number of collections on any level,
   up to such a local search.  Without a collection on a positive level the assertion holds (`C59_root_conflict_free`).
19. If the output file given with `-o` cannot be opened the exit code is 0 after a status line has been printed
   (`C54_wrong_exit_code`).
20. `open_pipe` passes the path unquoted to the shell.
21. Signal handling: the handler may call a null pointer (`C55_null_call`, `C55_installation_race`, `C55_alarm_null_call`).
22. `import.extension` is never read: `kissat_value` of a number used for a fresh extension variable is not zero
   (`C47_fresh_visible`).
23. After an answer given by a lucky phase `kissat_add` and `kissat_solve` are not rejected
   (`C52_add_after_answer_accepted`).
24. The built-in checker is not sound (`C57_unsound`).
25. `kitten.c`: a clause added after a solve is watched by its first two literals even if both are false at the root level
   (`C53_incremental_wrong`); `kitten_flip_literal` trusts a stale blocking literal (`C53_flip_wrong`);
   `kitten_shrink_to_clausal_core` leaves a dangling reference (`C53_shrink_wrong`); tracking switched on after an untracked
   inconsistent solve gives a satisfiable core (`C53_track_wrong`).  The solver itself does not use kitten in these ways.
   Also references in `katch` have 31 bits while `new_reference` compares with `UINT_MAX`.
26. `walk.c` increments `flipped` twice per flip.
27. `congruence.c`: `assert (~(tmp & 2))` is always true; XOR chains are written twice; gates are missed because
   counting rounds look at falsified literals and because `merge_condeq` never rewinds its second pointer.
28. `compact_queue` compares with `search.idx` after it was replaced; harmless.
29. `shrink_along_binary` ignores a failing `shrink_literal`; harmless.
30. `kissat_fresh_literal` compares the number of entries of the import table with `EXTERNAL_MAX_VAR` by `==` (import.c:85).  If the
   largest legal variable `2^30 - 1` is in use the table has `2^30` entries, the comparison fails and the fresh variable gets the
   number `2^30`, which is not a legal external variable (`C65_fresh_illegal`).  The assertion before (import.c:84) would fail as well.
31. `kissat_format_time` writes nothing for 0 < t < 0.5 s, so in a used ring of strings an older text is returned (`C66_time_stale`).
   The only call (resources.c:95) has a zeroed ring, where the text is empty.
32. The value `2147483647` of an option is printed as `INT_MAX`, which is not accepted as value on the command line (`C66_int_max_rejected`).
33. `TIER1` is the first glue limit of focused mode but `TIER2` the second one of *stable* mode (`internal.h:254-255`). The second limit computed in
    focused mode has no effect on reduction and promotion (`C69_focused_second_ignored`), and the option `focusedtiers` is not read anywhere.
34. `kissat_report` formats 19 values into a buffer of 128 bytes (`report.c:47`) without bound; values of 108 characters together (counters of ten digits)
    overflow the buffers of the header, a few more the line itself (`C73_report_overflow`). Up to 91 characters fit.
35. The path of the input file is printed as it is; with an end of line in it, lines which are no comments are printed, for instance
    a status line (`C73_newline_in_path`).
36. `print_message` resets the colour after the end of the line, so on a terminal the next line starts with an escape code
    (`C73_terminal_code`).
37. The test of glue averages for restarts is not strict: without margin (`--restartmargin=0`) it always succeeds if all glues are equal
   (`C74_constant_partial`), and with any margin before the first clause is learned in a mode (`C74_start`).
