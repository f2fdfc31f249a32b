import Verif.Props.Allocate
import Verif.Props.Answers
import Verif.Props.Arena
import Verif.Props.Averages
import Verif.Props.Bits
import Verif.Props.Check
import Verif.Props.Collect
import Verif.Props.Compact
import Verif.Props.Congruence
import Verif.Props.Containers
import Verif.Props.Decisions
import Verif.Props.Definition
import Verif.Props.Factor
import Verif.Props.Format
import Verif.Props.Joint
import Verif.Props.Kitten
import Verif.Props.Lucky
import Verif.Props.Mode
import Verif.Props.Options
import Verif.Props.Output
import Verif.Props.Parse
import Verif.Props.Phases
import Verif.Props.Print
import Verif.Props.Probe
import Verif.Props.Program
import Verif.Props.ProofWriter
import Verif.Props.Reconstruct
import Verif.Props.Reduce
import Verif.Props.Reluctant
import Verif.Props.Reorder
import Verif.Props.Restart
import Verif.Props.Search
import Verif.Props.Signals
import Verif.Props.Simplify
import Verif.Props.Substitute
import Verif.Props.Sweep
import Verif.Props.Tiers
import Verif.Props.Vivify
import Verif.Props.Walk
import Verif.Props.Whole
import Verif.Props.WholeOutput
/-
Generated by tools/manifest.py: prints the axioms every property theorem depends on.
-/
#print axioms Verif.Props.C01_search_model
#print axioms Verif.Props.C01_search_satisfiable
#print axioms Verif.Props.C01_conflict_again
#print axioms Verif.Props.C01_C02_search_file
#print axioms Verif.Props.C01_model
#print axioms Verif.Props.C01_C02_file
#print axioms Verif.Props.C02_search_unsatisfiable
#print axioms Verif.Props.C02_unsatisfiable
#print axioms Verif.Props.C03_proof_accepted
#print axioms Verif.Props.C03_every_line_rup
#print axioms Verif.Props.C03_empty_clause
#print axioms Verif.Props.C03_whole_proof
#print axioms Verif.Props.C04_results
#print axioms Verif.Props.C04_C58_local_search_after_conflict
#print axioms Verif.Props.C04_whole_results
#print axioms Verif.Props.C04_progress
#print axioms Verif.Props.C04_start
#print axioms Verif.Props.C05_value_sign
#print axioms Verif.Props.C05_value_neg
#print axioms Verif.Props.C05_unmentioned
#print axioms Verif.Props.C06_any_order
#print axioms Verif.Props.C07_models
#print axioms Verif.Props.C08_bijection
#print axioms Verif.Props.C09_invalid_literal
#print axioms Verif.Props.C09_after_answer
#print axioms Verif.Props.C09_incomplete_clause_partial
#print axioms Verif.Props.C09_incomplete_clause_accepted
#print axioms Verif.Props.C09_legal_accepted
#print axioms Verif.Props.C09_second_solve_accepted
#print axioms Verif.Props.C10_request_seen
#print axioms Verif.Props.C10_returns
#print axioms Verif.Props.C10_C11_cleared
#print axioms Verif.Props.C10_request_not_consumed
#print axioms Verif.Props.C10_callback_ignored
#print axioms Verif.Props.C11_decision_limit_partial
#print axioms Verif.Props.C11_no_decision_at_limit_partial
#print axioms Verif.Props.C11_limit_set
#print axioms Verif.Props.C11_conflict_counted
#print axioms Verif.Props.C11_strengthened_counted
#print axioms Verif.Props.C11_not_at_first_iteration
#print axioms Verif.Props.C12_adds_file
#print axioms Verif.Props.C12_adds_file_embedded
#print axioms Verif.Props.C12_unambiguous
#print axioms Verif.Props.C12_calls_accepted
#print axioms Verif.Props.C13_accepts_legal
#print axioms Verif.Props.C13_accepts_header_and_body
#print axioms Verif.Props.C13_strict
#print axioms Verif.Props.C13_no_overflow
#print axioms Verif.Props.C13_returns
#print axioms Verif.Props.C14_line_partial
#print axioms Verif.Props.C14_line_one
#print axioms Verif.Props.C14_wrong_line
#print axioms Verif.Props.C14_lines_of_file
#print axioms Verif.Props.C15_blocks_invisible
#print axioms Verif.Props.C15_characters
#print axioms Verif.Props.C15_bytes
#print axioms Verif.Props.C16_text_partial
#print axioms Verif.Props.C16_text_satisfiable_partial
#print axioms Verif.Props.C16_models_partial
#print axioms Verif.Props.C16_models_satisfiable_partial
#print axioms Verif.Props.C16_units_missing
#print axioms Verif.Props.C16_satisfiability_lost
#print axioms Verif.Props.C16_whole_text_partial
#print axioms Verif.Props.C16_whole_satisfiable_partial
#print axioms Verif.Props.C17_binary_proof_decodes
#print axioms Verif.Props.C17_at_most_five_bytes
#print axioms Verif.Props.C18_text_proof_decodes
#print axioms Verif.Props.C19_buffer_is_transparent
#print axioms Verif.Props.C19_flush_is_invisible
#print axioms Verif.Props.C19_capacity_is_invisible
#print axioms Verif.Props.C19_prefix_and_no_overflow
#print axioms Verif.Props.C19_flushproof_complete
#print axioms Verif.Props.C20_witness
#print axioms Verif.Props.C20_literals
#print axioms Verif.Props.C20_increasing
#print axioms Verif.Props.C20_api
#print axioms Verif.Props.C21_lookup_finds_exactly
#print axioms Verif.Props.C21_lookup_unknown
#print axioms Verif.Props.C22_always_in_range
#print axioms Verif.Props.C22_set_known
#print axioms Verif.Props.C22_set_unknown
#print axioms Verif.Props.C23_option_value_exact_partial
#print axioms Verif.Props.C23_divides_by_zero_iff
#print axioms Verif.Props.C23_zero_power_divides_by_zero
#print axioms Verif.Props.C24_argument_exact_partial
#print axioms Verif.Props.C24_argument_effect
#print axioms Verif.Props.C24_below_minimum_accepted
#print axioms Verif.Props.C25_configuration
#print axioms Verif.Props.C26_history
#print axioms Verif.Props.C26_call
#print axioms Verif.Props.C26_max
#print axioms Verif.Props.C26_empty
#print axioms Verif.Props.C27_consistent
#print axioms Verif.Props.C27_order
#print axioms Verif.Props.C28_stack
#print axioms Verif.Props.C28_fifo
#print axioms Verif.Props.C29_contents
#print axioms Verif.Props.C29_usable
#print axioms Verif.Props.C29_apart
#print axioms Verif.Props.C29_fatal
#print axioms Verif.Props.C30_sort
#print axioms Verif.Props.C30_sortStack
#print axioms Verif.Props.C31_radix
#print axioms Verif.Props.C32_reluctant_limited
#print axioms Verif.Props.C32_reluctant_unlimited
#print axioms Verif.Props.C32_disabled_never_triggers
#print axioms Verif.Props.C33_pick_in_range
#print axioms Verif.Props.C33_pick_empty
#print axioms Verif.Props.C33_sequence
#print axioms Verif.Props.C33_generator_injective
#print axioms Verif.Props.C33_log2_floor
#print axioms Verif.Props.C33_log2_ceiling
#print axioms Verif.Props.C33_leading_zeroes_unsigned
#print axioms Verif.Props.C33_align_word
#print axioms Verif.Props.C33_align_w2rd
#print axioms Verif.Props.C33_power_of_two
#print axioms Verif.Props.C33_cache_lines
#print axioms Verif.Props.C34_step
#print axioms Verif.Props.C34_dereference
#print axioms Verif.Props.C34_apart
#print axioms Verif.Props.C34_new
#print axioms Verif.Props.C34_binaries
#print axioms Verif.Props.C35_implied
#print axioms Verif.Props.C35_reasons
#print axioms Verif.Props.C35_conflict
#print axioms Verif.Props.C36_missed_after_collection
#print axioms Verif.Props.C36_C59_root_conflict_ignored
#print axioms Verif.Props.C36_complete_partial
#print axioms Verif.Props.C36_loose
#print axioms Verif.Props.C36_no_false_clause
#print axioms Verif.Props.C36_all_assigned
#print axioms Verif.Props.C37_available
#print axioms Verif.Props.C37_C41_linked
#print axioms Verif.Props.C37_available_again_partial
#print axioms Verif.Props.C37_C41_agree_partial
#print axioms Verif.Props.C37_backtrack_partial
#print axioms Verif.Props.C38_learned_clause
#print axioms Verif.Props.C38_new_level
#print axioms Verif.Props.C39_minimized_and_shrunken
#print axioms Verif.Props.C40_collect_assignment
#print axioms Verif.Props.C40_collect_clauses
#print axioms Verif.Props.C40_collect_models
#print axioms Verif.Props.C40_collect_reasons
#print axioms Verif.Props.C40_collect_reasons_right
#print axioms Verif.Props.C40_collect_watches
#print axioms Verif.Props.C40_collect_proof
#print axioms Verif.Props.C40_reduce_partial
#print axioms Verif.Props.C40_models_partial
#print axioms Verif.Props.C41_variable_partial
#print axioms Verif.Props.C41_phase
#print axioms Verif.Props.C41_forced
#print axioms Verif.Props.C41_target_first
#print axioms Verif.Props.C41_search_goes_on_partial
#print axioms Verif.Props.C41_decision_partial
#print axioms Verif.Props.C41_decide_partial
#print axioms Verif.Props.C42_defined
#print axioms Verif.Props.C42_values
#print axioms Verif.Props.C42_clauses
#print axioms Verif.Props.C42_models
#print axioms Verif.Props.C42_variables
#print axioms Verif.Props.C42_sequences
#print axioms Verif.Props.C42_reasons
#print axioms Verif.Props.C42_dense
#print axioms Verif.Props.C42_scores
#print axioms Verif.Props.C43_reconstruction
#print axioms Verif.Props.C43_recorded
#print axioms Verif.Props.C44_unsat
#print axioms Verif.Props.C44_equisatisfiable
#print axioms Verif.Props.C44_reconstruction
#print axioms Verif.Props.C44_proof
#print axioms Verif.Props.C44_gone
#print axioms Verif.Props.C44_one_variable
#print axioms Verif.Props.C45_definition
#print axioms Verif.Props.C46_representatives
#print axioms Verif.Props.C46_equivalent
#print axioms Verif.Props.C46_terminates
#print axioms Verif.Props.C46_complementary
#print axioms Verif.Props.C46_equisatisfiable
#print axioms Verif.Props.C46_reconstruction
#print axioms Verif.Props.C46_proof
#print axioms Verif.Props.C47_models
#print axioms Verif.Props.C47_correspondence
#print axioms Verif.Props.C47_proof
#print axioms Verif.Props.C47_answers_partial
#print axioms Verif.Props.C47_fresh_visible
#print axioms Verif.Props.C48_models
#print axioms Verif.Props.C48_unsat
#print axioms Verif.Props.C48_candidate
#print axioms Verif.Props.C49_transitive_reduction
#print axioms Verif.Props.C49_backbone
#print axioms Verif.Props.C49_propagated
#print axioms Verif.Props.C49_transitive_proof
#print axioms Verif.Props.C49_backbone_proof
#print axioms Verif.Props.C50_vivification
#print axioms Verif.Props.C50_proof
#print axioms Verif.Props.C51_representative
#print axioms Verif.Props.C51_merged
#print axioms Verif.Props.C51_negation
#print axioms Verif.Props.C51_gates
#print axioms Verif.Props.C51_recorded
#print axioms Verif.Props.C51_models
#print axioms Verif.Props.C51_equisatisfiable
#print axioms Verif.Props.C51_proof
#print axioms Verif.Props.C52_result
#print axioms Verif.Props.C52_lucky_model
#print axioms Verif.Props.C52_lucky_unsatisfiable
#print axioms Verif.Props.C52_model
#print axioms Verif.Props.C52_unsatisfiable
#print axioms Verif.Props.C52_solve_result
#print axioms Verif.Props.C52_add_after_answer_accepted
#print axioms Verif.Props.C53_sat_partial
#print axioms Verif.Props.C53_unsat_partial
#print axioms Verif.Props.C53_failed_partial
#print axioms Verif.Props.C53_answers_partial
#print axioms Verif.Props.C53_core_partial
#print axioms Verif.Props.C53_shrink_partial
#print axioms Verif.Props.C53_flip_partial
#print axioms Verif.Props.C53_incremental_wrong
#print axioms Verif.Props.C53_flip_wrong
#print axioms Verif.Props.C53_track_wrong
#print axioms Verif.Props.C53_shrink_wrong
#print axioms Verif.Props.C54_exit_partial
#print axioms Verif.Props.C54_exit_unsolved
#print axioms Verif.Props.C54_exit_sound
#print axioms Verif.Props.C54_status
#print axioms Verif.Props.C54_wrong_exit_code
#print axioms Verif.Props.C55_installed
#print axioms Verif.Props.C55_restored
#print axioms Verif.Props.C55_raise
#print axioms Verif.Props.C55_actions
#print axioms Verif.Props.C55_once_partial
#print axioms Verif.Props.C55_null_call
#print axioms Verif.Props.C55_installation_race
#print axioms Verif.Props.C55_alarm_partial
#print axioms Verif.Props.C55_alarm_null_call
#print axioms Verif.Props.C56_pipe
#print axioms Verif.Props.C56_plain
#print axioms Verif.Props.C56_no_overflow
#print axioms Verif.Props.C56_refused
#print axioms Verif.Props.C57_accepted_partial
#print axioms Verif.Props.C57_refutation
#print axioms Verif.Props.C57_remove_only
#print axioms Verif.Props.C57_remove_present
#print axioms Verif.Props.C57_remove_exact
#print axioms Verif.Props.C57_terminates
#print axioms Verif.Props.C57_unsound
#print axioms Verif.Props.C57_satisfying
#print axioms Verif.Props.C58_ready
#print axioms Verif.Props.C58_walk_defined
#print axioms Verif.Props.C58_walk_reports
#print axioms Verif.Props.C58_walk_clauses
#print axioms Verif.Props.C58_walk_models
#print axioms Verif.Props.C58_warmup
#print axioms Verif.Props.C59_root_conflict_free
#print axioms Verif.Props.C59_trail_consistent
#print axioms Verif.Props.C60_stamps_decrease
#print axioms Verif.Props.C60_decision_out_of_bounds
#print axioms Verif.Props.C60_single_fresh_partial
#print axioms Verif.Props.C60_search_out_of_bounds
#print axioms Verif.Props.C61_comment_swallows_line
#print axioms Verif.Props.C61_comments_ignored_partial
#print axioms Verif.Props.C62_conservative
#print axioms Verif.Props.C62_follows
#print axioms Verif.Props.C63_subsolver
#print axioms Verif.Props.C63_models
#print axioms Verif.Props.C63_kitten
#print axioms Verif.Props.C63_variables
#print axioms Verif.Props.C63_equisatisfiable
#print axioms Verif.Props.C63_proof
#print axioms Verif.Props.C64_subsolver
#print axioms Verif.Props.C64_definition
#print axioms Verif.Props.C64_equisatisfiable
#print axioms Verif.Props.C64_proof
#print axioms Verif.Props.C65_fresh_legal_partial
#print axioms Verif.Props.C65_fresh_illegal
#print axioms Verif.Props.C66_no_overflow
#print axioms Verif.Props.C66_text_stays
#print axioms Verif.Props.C66_count
#print axioms Verif.Props.C66_bytes
#print axioms Verif.Props.C66_ordinal
#print axioms Verif.Props.C66_time
#print axioms Verif.Props.C66_time_stale
#print axioms Verif.Props.C66_value_partial
#print axioms Verif.Props.C66_option_line_partial
#print axioms Verif.Props.C66_int_max_rejected
#print axioms Verif.Props.C67_accounting
#print axioms Verif.Props.C67_block
#print axioms Verif.Props.C67_stops
#print axioms Verif.Props.C67_no_memory
#print axioms Verif.Props.C68_kept
#print axioms Verif.Props.C68_number
#print axioms Verif.Props.C68_worst_first
#print axioms Verif.Props.C68_frame
#print axioms Verif.Props.C68_first_tier
#print axioms Verif.Props.C68_second_tier
#print axioms Verif.Props.C69_counts
#print axioms Verif.Props.C69_limits
#print axioms Verif.Props.C69_unused
#print axioms Verif.Props.C69_order
#print axioms Verif.Props.C69_table
#print axioms Verif.Props.C69_focused_partial
#print axioms Verif.Props.C69_stable_partial
#print axioms Verif.Props.C69_focused_second_ignored
#print axioms Verif.Props.C70_weights
#print axioms Verif.Props.C70_focused_partial
#print axioms Verif.Props.C70_focused_decision_partial
#print axioms Verif.Props.C70_stable_partial
#print axioms Verif.Props.C70_stable_decision_partial
#print axioms Verif.Props.C71_calls
#print axioms Verif.Props.C71_rephase
#print axioms Verif.Props.C71_size
#print axioms Verif.Props.C71_target
#print axioms Verif.Props.C71_best
#print axioms Verif.Props.C71_decision
#print axioms Verif.Props.C71_saved
#print axioms Verif.Props.C72_level_partial
#print axioms Verif.Props.C72_kept_partial
#print axioms Verif.Props.C72_restart_partial
#print axioms Verif.Props.C72_pause
#print axioms Verif.Props.C72_none
#print axioms Verif.Props.C73_lines_partial
#print axioms Verif.Props.C73_quiet
#print axioms Verif.Props.C73_verbosity
#print axioms Verif.Props.C73_message
#print axioms Verif.Props.C73_newline_in_path
#print axioms Verif.Props.C73_terminal_code
#print axioms Verif.Props.C73_report_overflow
#print axioms Verif.Props.C74_average_partial
#print axioms Verif.Props.C74_between_partial
#print axioms Verif.Props.C74_due_partial
#print axioms Verif.Props.C74_jump_partial
#print axioms Verif.Props.C74_constant_partial
#print axioms Verif.Props.C74_start
#print axioms Verif.Props.C75_phases
#print axioms Verif.Props.C75_test
#print axioms Verif.Props.C75_change
#print axioms Verif.Props.C75_balance
#print axioms Verif.Props.C75_single
