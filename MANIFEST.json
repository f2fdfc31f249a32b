{"claims": [
 {"property": "C01", "status": "partial", "theorems": ["Verif.Props.C01_search_model", "Verif.Props.C01_search_satisfiable", "Verif.Props.C01_conflict_again", "Verif.Props.C01_C02_search_file", "Verif.Props.C01_model", "Verif.Props.C01_C02_file"], "note": "C01_model and C01_C02_file are about kissat_solve as a whole: lucky phases, preprocessing, the CDCL loop and inprocessing at any point of it, and the extension of the model in kissat_value (Model/Whole.lean). Inprocessing is any sequence of the techniques modelled in Model/Simp; compact.c is not among them. Definition extraction and sweeping assume that cores and lemmas of the sub-solver are right, which is proved for kitten.c (C63_subsolver, C64_subsolver). Garbage collection (kissat_sparse_collect) on any decision level is a step of the search. Runs go on after a conflict on the root level which the code ignores (backtrack.c:172; C36_C59_root_conflict_ignored, C01_conflict_again). Missing: runs which then start local search, where the code has undefined behaviour and a wrong answer 10 is not excluded (C04_C58_local_search_after_conflict, finding 18 in DESIGN.md)."},
 {"property": "C02", "status": "proved", "theorems": ["Verif.Props.C02_search_unsatisfiable", "Verif.Props.C01_C02_search_file", "Verif.Props.C02_unsatisfiable", "Verif.Props.C01_C02_file"], "note": "Same model as C01. C02_search_unsatisfiable is the same for the search without inprocessing. Garbage collection (kissat_sparse_collect) on any decision level is a step of the search. Runs go on after a conflict on the root level which the code ignores (backtrack.c:172; C36_C59_root_conflict_ignored, C01_conflict_again); a run ends where local search is then started (undefined behaviour), at which point the empty clause has been derived and written, so that 20 is right there."},
 {"property": "C03", "status": "proved", "theorems": ["Verif.Props.C03_proof_accepted", "Verif.Props.C03_every_line_rup", "Verif.Props.C03_empty_clause", "Verif.Props.C03_whole_proof"], "note": "Covers every line written while clauses are added and by the search (learned, strengthened, shrunken clauses and deletions): each added line is RUP for what was written and not deleted before. C03_whole_proof: the same for kissat_solve with lucky phases, preprocessing and inprocessing, where lines are RUP or RAT. Garbage collection (kissat_sparse_collect) on any decision level is a step of the search. Runs go on after a conflict on the root level which the code ignores (backtrack.c:172; C36_C59_root_conflict_ignored, C01_conflict_again); a run ends where local search is then started (undefined behaviour), at which point the empty clause has been derived and written, so that 20 is right there."},
 {"property": "C04", "status": "partial", "theorems": ["Verif.Props.C04_results", "Verif.Props.C04_C58_local_search_after_conflict", "Verif.Props.C04_whole_results", "Verif.Props.C04_progress", "Verif.Props.C04_start"], "note": "Garbage collection (kissat_sparse_collect) on any decision level is a step of the search. Runs go on after a conflict on the root level which the code ignores (backtrack.c:172; C36_C59_root_conflict_ignored, C01_conflict_again). Missing: runs which then start local search, where the code has undefined behaviour: C04_results says that this is the only way to get stuck, C04_C58_local_search_after_conflict that it happens."},
 {"property": "C05", "status": "proved", "theorems": ["Verif.Props.C05_value_sign", "Verif.Props.C05_value_neg", "Verif.Props.C05_unmentioned"], "note": ""},
 {"property": "C06", "status": "proved", "theorems": ["Verif.Props.C06_any_order"], "note": "Single-shot use as in the code: extension is never repeated after the first query."},
 {"property": "C07", "status": "proved", "theorems": ["Verif.Props.C07_models"], "note": ""},
 {"property": "C08", "status": "proved", "theorems": ["Verif.Props.C08_bijection"], "note": ""},
 {"property": "C09", "status": "partial", "theorems": ["Verif.Props.C09_invalid_literal", "Verif.Props.C09_after_answer", "Verif.Props.C09_incomplete_clause_partial", "Verif.Props.C09_incomplete_clause_accepted", "Verif.Props.C09_legal_accepted", "Verif.Props.C09_second_solve_accepted"], "note": "Full statement is false: a second kissat_solve is accepted if the first one found the instance inconsistent or returned before searching (C09_second_solve_accepted) and an incomplete clause whose pending literals are root-fixed is not detected (C09_incomplete_clause_accepted). With lucky phases (default options) nothing is rejected after an answer found by luck (C52_add_after_answer_accepted)."},
 {"property": "C10", "status": "partial", "theorems": ["Verif.Props.C10_request_seen", "Verif.Props.C10_returns", "Verif.Props.C10_C11_cleared", "Verif.Props.C10_request_not_consumed", "Verif.Props.C10_callback_ignored"], "note": "Full statement is false: the callback installed with kissat_set_terminate is never called (C10_callback_ignored) and a request that arrives before kissat_solve and makes it return at once stays pending (C10_request_not_consumed). The other theorems are the part that holds."},
 {"property": "C11", "status": "partial", "theorems": ["Verif.Props.C10_C11_cleared", "Verif.Props.C11_decision_limit_partial", "Verif.Props.C11_no_decision_at_limit_partial", "Verif.Props.C11_limit_set", "Verif.Props.C11_conflict_counted", "Verif.Props.C11_strengthened_counted", "Verif.Props.C11_not_at_first_iteration"], "note": "Full statement is false: the limits are only tested at the end of the chain of tests in the loop, so the search can go on past a limit (C11_not_at_first_iteration)."},
 {"property": "C12", "status": "proved", "theorems": ["Verif.Props.C12_adds_file", "Verif.Props.C12_adds_file_embedded", "Verif.Props.C12_unambiguous", "Verif.Props.C12_calls_accepted"], "note": "Legal layouts are the grammar Spec/Dimacs.lean (all three modes). With embedded options (not in the default build) the file must not contain a comment starting with a dash, see C61."},
 {"property": "C13", "status": "proved", "theorems": ["Verif.Props.C13_accepts_legal", "Verif.Props.C13_accepts_header_and_body", "Verif.Props.C13_strict", "Verif.Props.C13_no_overflow", "Verif.Props.C13_returns"], "note": "C13_accepts_legal: accepted implies legal, for every byte sequence; the remaining theorems spell out consequences, also for builds with embedded options."},
 {"property": "C14", "status": "partial", "theorems": ["Verif.Props.C14_line_partial", "Verif.Props.C14_line_one", "Verif.Props.C14_wrong_line", "Verif.Props.C14_lines_of_file"], "note": "Full statement is false: most errors are reported for line 1 (C14_line_one, C14_wrong_line) because the local line counter is only written back by the NONL macro. C14_line_partial covers the messages using that macro."},
 {"property": "C15", "status": "proved", "theorems": ["Verif.Props.C15_blocks_invisible", "Verif.Props.C15_characters", "Verif.Props.C15_bytes"], "note": ""},
 {"property": "C16", "status": "partial", "theorems": ["Verif.Props.C16_text_partial", "Verif.Props.C16_text_satisfiable_partial", "Verif.Props.C16_models_partial", "Verif.Props.C16_models_satisfiable_partial", "Verif.Props.C16_units_missing", "Verif.Props.C16_satisfiability_lost", "Verif.Props.C16_whole_text_partial", "Verif.Props.C16_whole_satisfiable_partial"], "note": "Full statement is false: units (and the empty clause) are not written (C16_units_missing, C16_satisfiability_lost). Proved: the text is legal pedantic DIMACS with matching counts if the counter of clauses (a parameter) is right. Before a search and after answer 10 without inprocessing: models of the added clauses = models of the written clauses together with the root-level units. For the whole solver with preprocessing and inprocessing, after the answers 0 and 10 (C16_whole_text_partial, C16_whole_satisfiable_partial): the written clauses together with the root-level units are satisfiable if and only if the added clauses are. Missing: that the counter is right."},
 {"property": "C17", "status": "proved", "theorems": ["Verif.Props.C17_binary_proof_decodes", "Verif.Props.C17_at_most_five_bytes"], "note": ""},
 {"property": "C18", "status": "proved", "theorems": ["Verif.Props.C18_text_proof_decodes"], "note": ""},
 {"property": "C19", "status": "proved", "theorems": ["Verif.Props.C19_buffer_is_transparent", "Verif.Props.C19_flush_is_invisible", "Verif.Props.C19_capacity_is_invisible", "Verif.Props.C19_prefix_and_no_overflow", "Verif.Props.C19_flushproof_complete"], "note": ""},
 {"property": "C20", "status": "proved", "theorems": ["Verif.Props.C20_witness", "Verif.Props.C20_literals", "Verif.Props.C20_increasing", "Verif.Props.C20_api"], "note": ""},
 {"property": "C21", "status": "proved", "theorems": ["Verif.Props.C21_lookup_finds_exactly", "Verif.Props.C21_lookup_unknown"], "note": ""},
 {"property": "C22", "status": "proved", "theorems": ["Verif.Props.C22_always_in_range", "Verif.Props.C22_set_known", "Verif.Props.C22_set_unknown"], "note": ""},
 {"property": "C23", "status": "partial", "theorems": ["Verif.Props.C23_option_value_exact_partial", "Verif.Props.C23_divides_by_zero_iff", "Verif.Props.C23_zero_power_divides_by_zero"], "note": "Full statement is false: '0^2' divides by zero (C23_zero_power_divides_by_zero) and '0^05' is rejected. Missing from the partial theorem: the base-zero powers; C23_divides_by_zero_iff characterises exactly when the division by zero happens."},
 {"property": "C24", "status": "partial", "theorems": ["Verif.Props.C24_argument_exact_partial", "Verif.Props.C24_argument_effect", "Verif.Props.C24_below_minimum_accepted"], "note": "Full statement is false: '--name' is accepted and clamped for options whose minimum is above 1 (C24_below_minimum_accepted)."},
 {"property": "C25", "status": "proved", "theorems": ["Verif.Props.C25_configuration"], "note": ""},
 {"property": "C26", "status": "proved", "theorems": ["Verif.Props.C26_history", "Verif.Props.C26_call", "Verif.Props.C26_max", "Verif.Props.C26_empty"], "note": ""},
 {"property": "C27", "status": "proved", "theorems": ["Verif.Props.C27_consistent", "Verif.Props.C27_order"], "note": ""},
 {"property": "C28", "status": "proved", "theorems": ["Verif.Props.C28_stack", "Verif.Props.C28_fifo"], "note": ""},
 {"property": "C29", "status": "proved", "theorems": ["Verif.Props.C29_contents", "Verif.Props.C29_usable", "Verif.Props.C29_apart", "Verif.Props.C29_fatal"], "note": ""},
 {"property": "C30", "status": "proved", "theorems": ["Verif.Props.C30_sort", "Verif.Props.C30_sortStack"], "note": ""},
 {"property": "C31", "status": "proved", "theorems": ["Verif.Props.C31_radix"], "note": ""},
 {"property": "C32", "status": "proved", "theorems": ["Verif.Props.C32_reluctant_limited", "Verif.Props.C32_reluctant_unlimited", "Verif.Props.C32_disabled_never_triggers"], "note": ""},
 {"property": "C33", "status": "proved", "theorems": ["Verif.Props.C33_pick_in_range", "Verif.Props.C33_pick_empty", "Verif.Props.C33_sequence", "Verif.Props.C33_generator_injective", "Verif.Props.C33_log2_floor", "Verif.Props.C33_log2_ceiling", "Verif.Props.C33_leading_zeroes_unsigned", "Verif.Props.C33_align_word", "Verif.Props.C33_align_w2rd", "Verif.Props.C33_power_of_two", "Verif.Props.C33_cache_lines"], "note": ""},
 {"property": "C34", "status": "proved", "theorems": ["Verif.Props.C34_step", "Verif.Props.C34_dereference", "Verif.Props.C34_apart", "Verif.Props.C34_new", "Verif.Props.C34_binaries"], "note": ""},
 {"property": "C35", "status": "proved", "theorems": ["Verif.Props.C35_implied", "Verif.Props.C35_reasons", "Verif.Props.C35_conflict"], "note": "The states range over the whole solver: after lucky phases, preprocessing and inprocessing too (Reachable, Model/WholeReach.lean). Garbage collection (kissat_sparse_collect) on any decision level is a step of the search. Runs go on after a conflict on the root level which the code ignores (backtrack.c:172; C36_C59_root_conflict_ignored, C01_conflict_again); a run ends where local search is then started (undefined behaviour, finding 18 in DESIGN.md)."},
 {"property": "C36", "status": "partial", "theorems": ["Verif.Props.C36_missed_after_collection", "Verif.Props.C36_C59_root_conflict_ignored", "Verif.Props.C36_complete_partial", "Verif.Props.C36_loose", "Verif.Props.C36_no_false_clause", "Verif.Props.C36_all_assigned"], "note": "Full statement is false after garbage collection on a positive decision level with chronological backtracking (C36_missed_after_collection, C36_C59_root_conflict_ignored). C36_complete_partial holds as long as no such collection took place since clauses were watched anew; C36_no_false_clause and C36_all_assigned hold in every case. The states range over the whole solver: after lucky phases, preprocessing and inprocessing too (Reachable, Model/WholeReach.lean)."},
 {"property": "C37", "status": "partial", "theorems": ["Verif.Props.C37_available", "Verif.Props.C37_C41_linked", "Verif.Props.C37_available_again_partial", "Verif.Props.C37_C41_agree_partial", "Verif.Props.C37_backtrack_partial"], "note": "C37_backtrack_partial: values, trail, frames, reasons. C37_available covers queue and heap alone. C37_available_again_partial joins both: the calls made by backtracking the solver leave queue and heap in agreement with it and every variable without value available. Partial only because at most one new variable per run of bounded variable addition is assumed; otherwise the last part fails in the model (C60_search_out_of_bounds). The states range over the whole solver: after lucky phases, preprocessing and inprocessing too (Reachable, Model/WholeReach.lean)."},
 {"property": "C38", "status": "proved", "theorems": ["Verif.Props.C38_learned_clause", "Verif.Props.C38_new_level"], "note": "The states range over the whole solver: after lucky phases, preprocessing and inprocessing too (Reachable, Model/WholeReach.lean). Garbage collection (kissat_sparse_collect) on any decision level is a step of the search. Runs go on after a conflict on the root level which the code ignores (backtrack.c:172; C36_C59_root_conflict_ignored, C01_conflict_again); a run ends where local search is then started (undefined behaviour, finding 18 in DESIGN.md)."},
 {"property": "C39", "status": "proved", "theorems": ["Verif.Props.C39_minimized_and_shrunken"], "note": "The states range over the whole solver: after lucky phases, preprocessing and inprocessing too (Reachable, Model/WholeReach.lean). Garbage collection (kissat_sparse_collect) on any decision level is a step of the search. Runs go on after a conflict on the root level which the code ignores (backtrack.c:172; C36_C59_root_conflict_ignored, C01_conflict_again); a run ends where local search is then started (undefined behaviour, finding 18 in DESIGN.md)."},
 {"property": "C40", "status": "partial", "theorems": ["Verif.Props.C40_collect_assignment", "Verif.Props.C40_collect_clauses", "Verif.Props.C40_collect_models", "Verif.Props.C40_collect_reasons", "Verif.Props.C40_collect_reasons_right", "Verif.Props.C40_collect_watches", "Verif.Props.C40_collect_proof", "Verif.Props.C40_reduce_partial", "Verif.Props.C40_models_partial"], "note": "C40_reduce_partial and C40_models_partial are about marking garbage and kissat_reduce as a whole. C40_collect_* are about kissat_sparse_collect on any decision level, in any reachable state after propagation (also after earlier collections) and any choice of marked clauses. Missing: kissat_reduce before collection flushes root units and ignores a conflict there, which the theorems about collection assume away (finding 18); C40_collect_proof does not count copies of binary clauses (the proof theorems C03 do), and variables are not renumbered. The states range over the whole solver: after lucky phases, preprocessing and inprocessing too (Reachable, Model/WholeReach.lean)."},
 {"property": "C41", "status": "partial", "theorems": ["Verif.Props.C41_variable_partial", "Verif.Props.C41_phase", "Verif.Props.C41_forced", "Verif.Props.C41_target_first", "Verif.Props.C37_C41_linked", "Verif.Props.C37_C41_agree_partial", "Verif.Props.C41_search_goes_on_partial", "Verif.Props.C41_decision_partial", "Verif.Props.C41_decide_partial"], "note": "Decisions are made by queue and heap inside the search loop (C41_decision_partial, C41_search_goes_on_partial, Model/Core/Joint.lean). Partial: assumes at most one new variable per run of bounded variable addition; otherwise the claim fails in the model (C60_search_out_of_bounds). The states range over the whole solver: after lucky phases, preprocessing and inprocessing too (Reachable, Model/WholeReach.lean)."},
 {"property": "C42", "status": "proved", "theorems": ["Verif.Props.C42_defined", "Verif.Props.C42_values", "Verif.Props.C42_clauses", "Verif.Props.C42_models", "Verif.Props.C42_variables", "Verif.Props.C42_sequences", "Verif.Props.C42_reasons", "Verif.Props.C42_dense", "Verif.Props.C42_scores"], "note": "Collection and compaction (collect.c sparse collection, compact.c) on the tables reached by importing, activating, assigning, fixing, eliminating and compacting variables. Anchored and Watched say that clauses, trail, frames, queue and schedule refer to active variables and that units have been propagated; both hold again after compaction. The arena layout is not modelled here (C31, C40)."},
 {"property": "C43", "status": "proved", "theorems": ["Verif.Props.C43_reconstruction", "Verif.Props.C43_recorded"], "note": "Over all histories of clause removals with witnesses, variable eliminations and steps without additional models; that the techniques only take such steps is the subject of C44 to C51."},
 {"property": "C44", "status": "proved", "theorems": ["Verif.Props.C44_unsat", "Verif.Props.C44_equisatisfiable", "Verif.Props.C44_reconstruction", "Verif.Props.C44_proof", "Verif.Props.C44_gone", "Verif.Props.C44_one_variable"], "note": "Bounded variable elimination as in eliminate.c and resolve.c with gates. The sub-solver for definitions is a parameter assumed to return only refutable cores (Kitten.Sound). Dense mode is entered from a state whose clauses are stored as added."},
 {"property": "C45", "status": "proved", "theorems": ["Verif.Props.C45_definition"], "note": "All gate types. For semantic definitions the sub-solver is a parameter assumed to return only refutable cores."},
 {"property": "C46", "status": "proved", "theorems": ["Verif.Props.C46_representatives", "Verif.Props.C46_equivalent", "Verif.Props.C46_terminates", "Verif.Props.C46_complementary", "Verif.Props.C46_equisatisfiable", "Verif.Props.C46_reconstruction", "Verif.Props.C46_proof"], "note": ""},
 {"property": "C47", "status": "partial", "theorems": ["Verif.Props.C47_models", "Verif.Props.C47_correspondence", "Verif.Props.C47_proof", "Verif.Props.C47_answers_partial", "Verif.Props.C47_fresh_visible"], "note": "First half proved in full (same models on the old variables, any schedule, with proof lines and reconstruction). Second half is false: kissat_value of the external number taken by a fresh variable gives a nonzero value since the extension mark is never read (C47_fresh_visible)."},
 {"property": "C48", "status": "proved", "theorems": ["Verif.Props.C48_models", "Verif.Props.C48_unsat", "Verif.Props.C48_candidate"], "note": "Forward subsumption (forward.c) with any candidates and any connected clauses. On-the-fly subsumption and strengthening are part of the core model (C02, C03)."},
 {"property": "C49", "status": "proved", "theorems": ["Verif.Props.C49_transitive_reduction", "Verif.Props.C49_backbone", "Verif.Props.C49_propagated", "Verif.Props.C49_transitive_proof", "Verif.Props.C49_backbone_proof"], "note": ""},
 {"property": "C50", "status": "proved", "theorems": ["Verif.Props.C50_vivification", "Verif.Props.C50_proof"], "note": ""},
 {"property": "C51", "status": "proved", "theorems": ["Verif.Props.C51_representative", "Verif.Props.C51_merged", "Verif.Props.C51_negation", "Verif.Props.C51_gates", "Verif.Props.C51_recorded", "Verif.Props.C51_models", "Verif.Props.C51_equisatisfiable", "Verif.Props.C51_proof"], "note": "All of congruence.c is modelled: extraction of AND, XOR and if-then-else gates, new gates, rewriting, simplification, propagation of units and equivalences, and forward subsumption modulo representatives, with the lines written to the proof. Which clauses are tried is arbitrary. Starting from any state reached by any sequence of the modelled techniques. Sorting of saved binary clauses and hash tables are abstracted to membership."},
 {"property": "C52", "status": "proved", "theorems": ["Verif.Props.C52_result", "Verif.Props.C52_lucky_model", "Verif.Props.C52_lucky_unsatisfiable", "Verif.Props.C52_model", "Verif.Props.C52_unsatisfiable", "Verif.Props.C52_solve_result", "Verif.Props.C52_add_after_answer_accepted"], "note": "kissat_lucky and kissat_solve with early and late lucky phases, without preprocessing. C52_add_after_answer_accepted: after an answer found by luck the calls of C09 are not rejected."},
 {"property": "C53", "status": "partial", "theorems": ["Verif.Props.C53_sat_partial", "Verif.Props.C53_unsat_partial", "Verif.Props.C53_failed_partial", "Verif.Props.C53_answers_partial", "Verif.Props.C53_core_partial", "Verif.Props.C53_shrink_partial", "Verif.Props.C53_flip_partial", "Verif.Props.C53_incremental_wrong", "Verif.Props.C53_flip_wrong", "Verif.Props.C53_track_wrong", "Verif.Props.C53_shrink_wrong"], "note": "kitten.c is modelled completely for solving, assumptions, cores and shrinking, all decision choices and limits are parameters. The theorems range over all histories of calls (Run). Full statement is false for clauses added after a search whose first two literals are both fixed to false (C53_incremental_wrong), for values after flipping a literal (C53_flip_wrong), for tracking enabled after a search (C53_track_wrong) and for shrinking with a given empty clause (C53_shrink_wrong). Histories (Run) include flipping and shuffling, but not the other three calls, and values are those before flipping; only in this respect C53_sat_partial, C53_unsat_partial, C53_failed_partial, C53_core_partial and C53_shrink_partial are weaker than the property. C53_flip_partial is about values after successful and failing flips."},
 {"property": "C54", "status": "partial", "theorems": ["Verif.Props.C54_exit_partial", "Verif.Props.C54_exit_unsolved", "Verif.Props.C54_exit_sound", "Verif.Props.C54_status", "Verif.Props.C54_wrong_exit_code"], "note": "Full statement is false: if the file given with -o cannot be opened the status line says SATISFIABLE but the exit code is 0 (C54_wrong_exit_code). The parts of the program (options, proof, parsing, solving) are parameters."},
 {"property": "C55", "status": "partial", "theorems": ["Verif.Props.C55_installed", "Verif.Props.C55_restored", "Verif.Props.C55_raise", "Verif.Props.C55_actions", "Verif.Props.C55_once_partial", "Verif.Props.C55_null_call", "Verif.Props.C55_installation_race", "Verif.Props.C55_alarm_partial", "Verif.Props.C55_alarm_null_call"], "note": "Full statement is false: with inherited actions that do not end the process two signals can interleave such that a null pointer is called (C55_null_call); a signal during installation leaves handlers installed for ever (C55_installation_race); SIGALRM during kissat_reset_alarm calls a null pointer (C55_alarm_null_call). The other theorems are the part that holds, for every interleaving."},
 {"property": "C56", "status": "proved", "theorems": ["Verif.Props.C56_pipe", "Verif.Props.C56_plain", "Verif.Props.C56_no_overflow", "Verif.Props.C56_refused"], "note": ""},
 {"property": "C57", "status": "partial", "theorems": ["Verif.Props.C57_accepted_partial", "Verif.Props.C57_refutation", "Verif.Props.C57_remove_only", "Verif.Props.C57_remove_present", "Verif.Props.C57_remove_exact", "Verif.Props.C57_terminates", "Verif.Props.C57_unsound", "Verif.Props.C57_satisfying"], "note": "Full statement is false: a clause containing a literal falsified by root-level units is accepted as 'blocked' on it, after which the empty clause can be accepted for satisfiable input (C57_unsound); clauses accepted as blocked or pure are not implied. C57_accepted_partial characterises what is accepted, C57_refutation shows that accepted refutations are correct as long as no checked clause has a root-falsified literal, and the removal theorems are the full second half of the property for clauses without duplicated literals."},
 {"property": "C58", "status": "partial", "theorems": ["Verif.Props.C04_C58_local_search_after_conflict", "Verif.Props.C58_ready", "Verif.Props.C58_walk_defined", "Verif.Props.C58_walk_reports", "Verif.Props.C58_walk_clauses", "Verif.Props.C58_walk_models", "Verif.Props.C58_warmup"], "note": "Local search (walk.c) is modelled with the picked literals as parameter; C58_ready shows that the hypotheses hold in every state in which kissat_rephase starts it. The theorems cover the reported numbers, saved phases, clauses (only clauses satisfied at the root become garbage) and the root assignment. Warm-up is part of the search loop, so the answer theorems (C01-C03) cover it too; C58_warmup says that it restores the root state. Garbage collection (kissat_sparse_collect) on any decision level is a step of the search. Missing: local search started after an ignored conflict on the root level (C04_C58_local_search_after_conflict), where the statement is false: watch lists are not restored (read from the code, dense.c:203-204)."},
 {"property": "C59", "status": "proved", "theorems": ["Verif.Props.C36_C59_root_conflict_ignored", "Verif.Props.C59_root_conflict_free", "Verif.Props.C59_trail_consistent"], "note": "The states range over the whole solver: after lucky phases, preprocessing and inprocessing too (Reachable, Model/WholeReach.lean). Garbage collection (kissat_sparse_collect) on any decision level is a step of the search. Runs go on after a conflict on the root level which the code ignores (backtrack.c:172; C36_C59_root_conflict_ignored, C01_conflict_again); a run ends where local search is then started (undefined behaviour, finding 18 in DESIGN.md)."},
 {"property": "C60", "status": "partial", "theorems": ["Verif.Props.C60_stamps_decrease", "Verif.Props.C60_decision_out_of_bounds", "Verif.Props.C60_single_fresh_partial", "Verif.Props.C60_search_out_of_bounds"], "note": "Full statement is false: with two fresh variables in one run the stamps decrease along the queue (C60_stamps_decrease), there is a sequence of assignments and unassignments after which the search for a decision variable leaves the queue (C60_decision_out_of_bounds), and iterations of the search loop with --bump=0 produce such a sequence from a queue with five fresh variables (C60_search_out_of_bounds). Proved: one fresh variable per run."},
 {"property": "C61", "status": "partial", "theorems": ["Verif.Props.C61_comment_swallows_line", "Verif.Props.C61_comments_ignored_partial"], "note": "Full statement is false: C61_comment_swallows_line. The partial theorem covers files without comments starting with a dash."},
 {"property": "C62", "status": "proved", "theorems": ["Verif.Props.C62_conservative", "Verif.Props.C62_follows"], "note": ""},
 {"property": "C63", "status": "proved", "theorems": ["Verif.Props.C63_subsolver", "Verif.Props.C63_models", "Verif.Props.C63_kitten", "Verif.Props.C63_variables", "Verif.Props.C63_equisatisfiable", "Verif.Props.C63_proof"], "note": "The main functions of sweep.c (copying clauses, backbone and equivalence candidates, saving and adding cores, substitution in connected clauses) as a technique which may run at any time among the others. Which variables, clauses and candidates are tried is arbitrary, so refinement of candidates and schedule are covered without being modelled. Hypothesis on the sub-solver (Sound) is proved for the model of kitten.c in C63_subsolver with any flipped literals."},
 {"property": "C64", "status": "proved", "theorems": ["Verif.Props.C64_subsolver", "Verif.Props.C64_definition", "Verif.Props.C64_equisatisfiable", "Verif.Props.C64_proof"], "note": "The calls of kitten.c in definition.c over the model of kitten.c; ticks limits are arbitrary numbers of rounds. The environment clauses are those of Model/Simp/Gates.lean."},
 {"property": "C65", "status": "partial", "theorems": ["Verif.Props.C65_fresh_legal_partial", "Verif.Props.C65_fresh_illegal"], "note": "False at the boundary: with the variable 2^30 - 1 in use the fresh variable gets the illegal number 2^30 (C65_fresh_illegal). Proved for states whose largest variable is at most 2^30 - 2 before bounded variable addition (C65_fresh_legal_partial). Missing: that the other techniques do not enlarge the table of external variables."},
 {"property": "C66", "status": "partial", "theorems": ["Verif.Props.C66_no_overflow", "Verif.Props.C66_text_stays", "Verif.Props.C66_count", "Verif.Props.C66_bytes", "Verif.Props.C66_ordinal", "Verif.Props.C66_time", "Verif.Props.C66_time_stale", "Verif.Props.C66_value_partial", "Verif.Props.C66_option_line_partial", "Verif.Props.C66_int_max_rejected"], "note": "False in two corners: the value 2^31 - 1 is printed as INT_MAX, which the option parser rejects (C66_int_max_rejected), and a time below half a second in a used ring of strings gives an older text (C66_time_stale; not reachable from the only call in resources.c). C66_value_partial and C66_option_line_partial exclude INT_MAX. C66_bytes excludes the last 2^29 numbers, where the rounding in the code wraps around."},
 {"property": "C67", "status": "proved", "theorems": ["Verif.Props.C67_accounting", "Verif.Props.C67_block", "Verif.Props.C67_stops", "Verif.Props.C67_no_memory"], "note": "Counters exist only with METRICS; the maximum and the leak check are about such builds. Callers are assumed to give back what they have with the right size; that all callers in the solver do so is not modelled."},
 {"property": "C68", "status": "proved", "theorems": ["Verif.Props.C68_kept", "Verif.Props.C68_number", "Verif.Props.C68_worst_first", "Verif.Props.C68_frame", "Verif.Props.C68_first_tier", "Verif.Props.C68_second_tier"], "note": "About the selection in isolation: clauses are numbered by their position and garbage clauses stay in the list. The search model (Core/Reduce) allows any learned clauses that are no reasons to be thrown away, so soundness (C36, C40) does not depend on this property. Limits and the intended number are arbitrary, the latter is computed with floating point numbers."},
 {"property": "C69", "status": "partial", "theorems": ["Verif.Props.C69_counts", "Verif.Props.C69_limits", "Verif.Props.C69_unused", "Verif.Props.C69_order", "Verif.Props.C69_table", "Verif.Props.C69_focused_partial", "Verif.Props.C69_stable_partial", "Verif.Props.C69_focused_second_ignored"], "note": "False for the limits in effect: the macros TIER1 and TIER2 read the first limit of focused mode and the second limit of stable mode, so that the second limit computed in focused mode has no effect on reduction and promotion (C69_focused_second_ignored); C69_focused_partial and C69_stable_partial say what holds. The products with floating point shares are arbitrary numbers; that they are at most the total and ordered is a hypothesis (true below 2^53 uses for the default options). The table is proved for fewer than 10^19 uses and limits up to 127 (C69_order gives the latter)."},
 {"property": "C70", "status": "partial", "theorems": ["Verif.Props.C70_weights", "Verif.Props.C70_focused_partial", "Verif.Props.C70_focused_decision_partial", "Verif.Props.C70_stable_partial", "Verif.Props.C70_stable_decision_partial"], "note": "C70_weights holds in full. The theorems on queue and heap assume at most one new variable per run of bounded variable addition, as C41 does (see C60). Floating point numbers are a linear order (no NaN) with arbitrary operations. A true literal found only after reordermaxsize unassigned ones does not exempt its clause; the specification says so."},
 {"property": "C71", "status": "proved", "theorems": ["Verif.Props.C71_calls", "Verif.Props.C71_rephase", "Verif.Props.C71_size", "Verif.Props.C71_target", "Verif.Props.C71_best", "Verif.Props.C71_decision", "Verif.Props.C71_saved"], "note": "Renumbering of variables (compact.c:288-318, which counts the remaining phases again) and new variables are not modelled. The number of assigned variables is computed as in the code and includes removed variables. Assignments of local search are arbitrary. Calls may come in any order, also such that the search cannot make."},
 {"property": "C72", "status": "partial", "theorems": ["Verif.Props.C72_level_partial", "Verif.Props.C72_kept_partial", "Verif.Props.C72_restart_partial", "Verif.Props.C72_pause", "Verif.Props.C72_none"], "note": "The theorems on queue and heap assume at most one new variable per run of bounded variable addition, as C41 does (see C60). C72_pause and C72_none hold in full; the logarithm is an arbitrary function which is at least one, overflow of 64-bit counters is left out. The variable of a random decision sequence is arbitrary."},
 {"property": "C73", "status": "partial", "theorems": ["Verif.Props.C73_lines_partial", "Verif.Props.C73_quiet", "Verif.Props.C73_verbosity", "Verif.Props.C73_message", "Verif.Props.C73_newline_in_path", "Verif.Props.C73_terminal_code", "Verif.Props.C73_report_overflow"], "note": "False: an end of line in a text (the path of the input file) breaks comment lines (C73_newline_in_path), on a terminal escape codes come first (C73_terminal_code), and the buffers of reports can overflow (C73_report_overflow). C73_lines_partial says what holds otherwise. Texts are the results of formatting; that the solver's own formats have no end of line is a hypothesis. Other output (help, option lists, statistics) is not modelled."},
 {"property": "C74", "status": "partial", "theorems": ["Verif.Props.C74_average_partial", "Verif.Props.C74_between_partial", "Verif.Props.C74_due_partial", "Verif.Props.C74_jump_partial", "Verif.Props.C74_constant_partial", "Verif.Props.C74_start"], "note": "Numbers are rationals: rounding of doubles is missing, and with it the case new_exp == old_exp (smooth.c:47), which exact arithmetic never reaches. The averages level, size and trail, which are only printed, are left out. The restart theorems are about the test of averages; how it is combined with limits is C72."},
 {"property": "C75", "status": "proved", "theorems": ["Verif.Props.C75_phases", "Verif.Props.C75_test", "Verif.Props.C75_change", "Verif.Props.C75_balance", "Verif.Props.C75_single"], "note": "One call to search; the number of conflicts of later focused phases (interval * kissat_nlogpown) is an arbitrary function of the interval and the number of phases. Counters have no overflow. The assertion that the limit of ticks is not zero (mode.c:88) is not modelled."}
]}
