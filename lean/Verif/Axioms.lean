import Verif.Props.Again
import Verif.Props.Algebra
import Verif.Props.Amount
import Verif.Props.Beside
import Verif.Props.Callback
import Verif.Props.Case
import Verif.Props.Cfg
import Verif.Props.Compose
import Verif.Props.Count
import Verif.Props.Cut
import Verif.Props.Debug
import Verif.Props.DebugTokens
import Verif.Props.Delimiters
import Verif.Props.Direction
import Verif.Props.Display
import Verif.Props.Docs
import Verif.Props.Document
import Verif.Props.DocumentShow
import Verif.Props.Edges
import Verif.Props.Edit
import Verif.Props.EditDocument
import Verif.Props.EditSteps
import Verif.Props.EndToEnd
import Verif.Props.Entry
import Verif.Props.Exceptions
import Verif.Props.Fuse
import Verif.Props.Given
import Verif.Props.Grammar
import Verif.Props.Laws
import Verif.Props.Layers
import Verif.Props.Local
import Verif.Props.Longest
import Verif.Props.Loops
import Verif.Props.ManySentences
import Verif.Props.Match
import Verif.Props.Mirror
import Verif.Props.Observe
import Verif.Props.Once
import Verif.Props.OnceExcept
import Verif.Props.OnceSize
import Verif.Props.Parts
import Verif.Props.Phrase
import Verif.Props.Piecewise
import Verif.Props.Pipeline
import Verif.Props.Positions
import Verif.Props.Priority
import Verif.Props.Program
import Verif.Props.Recurse
import Verif.Props.Recut
import Verif.Props.Reference
import Verif.Props.Refine
import Verif.Props.Represent
import Verif.Props.Resolve
import Verif.Props.Rewrite
import Verif.Props.Scan
import Verif.Props.Select
import Verif.Props.Sentences
import Verif.Props.Show
import Verif.Props.ShowSteps
import Verif.Props.Silent
import Verif.Props.Sink
import Verif.Props.Sliced
import Verif.Props.SlicedEdit
import Verif.Props.SlicedSteps
import Verif.Props.Stateful
import Verif.Props.Steps
import Verif.Props.Store
import Verif.Props.Structure
import Verif.Props.Together
import Verif.Props.TokenLines
import Verif.Props.Tokenize
import Verif.Props.Uax29
import Verif.Props.Unambiguous
import Verif.Props.UserMatch
import Verif.Props.View
import Verif.Props.Wall
import Verif.Props.Ways
import Verif.Props.Width
import Verif.Props.Window
import Verif.Props.Written
import Verif.Props.WrittenIn
/- The axioms each property theorem depends on (printed by `lake build`). -/
namespace LNlp
#print axioms C01_lossless
#print axioms C01_exact_tokens
#print axioms C02_positions_tile
#print axioms C02_own_size
#print axioms C02_no_gaps
#print axioms C03_byte_offsets
#print axioms C04_no_empty_tokens
#print axioms C05_natn_iff_digits
#print axioms C06_tags_determined
#print axioms C07_punc_documented_false
#print axioms C07_punc_partial
#print axioms C08_runs_maximal_in_word
#print axioms C08_no_adjacent_numbers
#print axioms C09_creation_panics_iff
#print axioms C09_nonempty_never_panics_false
#print axioms C10_checked_positions_exact
#print axioms C10_release_wraps
#print axioms C10_positions_mod
#print axioms C100_table
#print axioms C100_keywords
#print axioms C100_pos
#print axioms C101_amounts_piecewise
#print axioms C101_amounts_before
#print axioms C101_condition_needed
#print axioms C102_readable_partial
#print axioms C102_displays_determine_the_line_partial
#print axioms C102_own_types
#print axioms C102_ambiguous
#print axioms C103_both_sides
#print axioms C103_orders_agree
#print axioms C104_forwards
#print axioms C104_backwards
#print axioms C104_find_by
#print axioms C104_parts
#print axioms C105_sentences
#print axioms C105_crosses_sentences
#print axioms C105_without_condition
#print axioms C106_nesting
#print axioms C106_rebracketing
#print axioms C106_parts
#print axioms C106_phrase
#print axioms C107_extending
#print axioms C107_searching
#print axioms C107_trimming
#print axioms C107_after_partial
#print axioms C107_after_false
#print axioms C108_sequence_partial
#print axioms C108_all_partial
#print axioms C108_interchange_partial
#print axioms C108_sequence_exact
#print axioms C108_all_exact
#print axioms C108_interchange_exact
#print axioms C108_sequence_false
#print axioms C108_all_false
#print axioms C108_interchange_false
#print axioms C109_tokens
#print axioms C109_table
#print axioms C109_keywords
#print axioms C109_parts_of_speech
#print axioms C109_clauses
#print axioms C109_text
#print axioms C11_builtin_attributes
#print axioms C110_one_run
#print axioms C110_fuse
#print axioms C110_order
#print axioms C110_tables
#print axioms C111_names
#print axioms C111_rendering_of_queries
#print axioms C111_clauses
#print axioms C111_parts_of_speech
#print axioms C111_table
#print axioms C112_again
#print axioms C112_line
#print axioms C112_phrases
#print axioms C112_phrases_case_insensitive
#print axioms C112_keywords
#print axioms C113_parts
#print axioms C113_cut
#print axioms C113_words
#print axioms C113_inside_words
#print axioms C114_increasing
#print axioms C114_find
#print axioms C114_texts
#print axioms C114_size_zero
#print axioms C115_find_is_query
#print axioms C115_find_perm_query
#print axioms C116_selections
#print axioms C116_finds
#print axioms C116_assignments
#print axioms C116_attributes
#print axioms C116_names
#print axioms C117_refines
#print axioms C117_covers
#print axioms C117_lists
#print axioms C118_same
#print axioms C118_joins
#print axioms C118_joins_text
#print axioms C118_neighbours
#print axioms C119_creation
#print axioms C119_resolvers
#print axioms C119_library
#print axioms C119_pipelines
#print axioms C119_observers
#print axioms C119_end_to_end
#print axioms C12_input_attributes
#print axioms C12_add_attr
#print axioms C12_values_on_ranges
#print axioms C120_blind
#print axioms C120_commute
#print axioms C120_twice
#print axioms C120_any_matcher_false
#print axioms C121_never_panics
#print axioms C121_testable
#print axioms C121_pipelines
#print axioms C121_after_panics
#print axioms C121_has_any_false
#print axioms C122_results_inside
#print axioms C122_panics
#print axioms C122_never_panics
#print axioms C122_find_by
#print axioms C122_jump_false
#print axioms C123_keep
#print axioms C123_change
#print axioms C123_unless
#print axioms C123_both
#print axioms C124_boundaries
#print axioms C124_split_laws
#print axioms C124_no_digit_break
#print axioms C124_dash_break
#print axioms C124_split_stable
#print axioms C124_recase
#print axioms C124_lower
#print axioms C124_lower_joiner_false
#print axioms C124_phrase_joiner_false
#print axioms C124_digit_word_panics
#print axioms C124_again
#print axioms C125_one_run
#print axioms C125_sound
#print axioms C125_layers
#print axioms C125_query
#print axioms C125_order
#print axioms C125_steps
#print axioms C125_passes
#print axioms C125_enough_passes
#print axioms C125_one_pass_false
#print axioms C125_more
#print axioms C125_stock_passes
#print axioms C126_calls
#print axioms C126_tokens
#print axioms C126_sizes
#print axioms C126_panic
#print axioms C126_ok
#print axioms C126_pure
#print axioms C126_line
#print axioms C127_tokens
#print axioms C127_whole
#print axioms C127_fraction
#print axioms C127_thousands
#print axioms C127_cents
#print axioms C127_different
#print axioms C127_french_point
#print axioms C127_side_by_side
#print axioms C127_in_text
#print axioms C127_number_in_text
#print axioms C128_string
#print axioms C128_sink
#print axioms C128_ok
#print axioms C128_prefix
#print axioms C128_blame
#print axioms C128_room
#print axioms C128_panic
#print axioms C129_function
#print axioms C129_follows
#print axioms C129_results
#print axioms C129_stops
#print axioms C129_attr_eq
#print axioms C129_has_any_backwards
#print axioms C129_has_any_forwards
#print axioms C129_find_by_order
#print axioms C129_order
#print axioms C129_ready
#print axioms C129_search_order
#print axioms C129_comparisons
#print axioms C129_asked
#print axioms C129_debug
#print axioms C129_safe_matcher
#print axioms C129_safe_search
#print axioms C129_safe_find
#print axioms C13_query_is_history
#print axioms C13_query_panics_iff
#print axioms C13_query_complete
#print axioms C130_consistent
#print axioms C130_unique
#print axioms C130_order
#print axioms C130_careful
#print axioms C130_library
#print axioms C130_circles_false
#print axioms C131_create
#print axioms C131_matchers
#print axioms C131_find
#print axioms C131_run
#print axioms C131_pipeline
#print axioms C131_library
#print axioms C131_currency
#print axioms C131_query
#print axioms C131_display
#print axioms C131_eq_needed
#print axioms C131_debug_needed
#print axioms C132_tokens
#print axioms C132_text
#print axioms C132_one_line
#print axioms C132_selections
#print axioms C132_finds
#print axioms C132_assignments
#print axioms C132_any_of
#print axioms C132_any_of3
#print axioms C132_any_of_text
#print axioms C132_any_of3_text
#print axioms C132_plain
#print axioms C132_line
#print axioms C132_lines
#print axioms C132_strings
#print axioms C133_order
#print axioms C133_swap
#print axioms C133_matchers
#print axioms C133_exact
#print axioms C133_pipelines
#print axioms C133_queries
#print axioms C133_queries_panic
#print axioms C134_ends
#print axioms C134_equation
#print axioms C134_unique
#print axioms C134_builtin
#print axioms C134_results_inside
#print axioms C134_never_panics
#print axioms C134_many
#print axioms C134_find_many
#print axioms C134_spaces_forwards
#print axioms C134_spaces_backwards
#print axioms C134_trim
#print axioms C134_trim_all
#print axioms C134_backwards_needed
#print axioms C135_matchers
#print axioms C135_calls
#print axioms C135_programs
#print axioms C135_session
#print axioms C135_complete
#print axioms C135_resolvers
#print axioms C136_library
#print axioms C136_library_all
#print axioms C136_alike
#print axioms C136_wrappers
#print axioms C136_inside
#print axioms C136_never_panics
#print axioms C136_hide
#print axioms C136_hide_layers
#print axioms C136_skip_inside
#print axioms C136_skip_seq
#print axioms C136_skip_backwards_false
#print axioms C137_forwards
#print axioms C137_backwards
#print axioms C137_find_by
#print axioms C137_fresh
#print axioms C137_attained
#print axioms C137_no_repetition
#print axioms C137_trim_start
#print axioms C137_trim_end
#print axioms C138_results
#print axioms C138_find_by
#print axioms C138_unambiguous
#print axioms C138_fresh
#print axioms C138_attained
#print axioms C139_false
#print axioms C139_always_panic_partial
#print axioms C139_longest_instead
#print axioms C139_shortest_instead
#print axioms C14_attr_forwards
#print axioms C14_attr_forwards_exact
#print axioms C140_test_line
#print axioms C140_one_search
#print axioms C140_one_line
#print axioms C140_forwards
#print axioms C140_backwards
#print axioms C140_merge_false
#print axioms C140_merge
#print axioms C140_fresh_needed
#print axioms C140_any_of_false
#print axioms C141_sound
#print axioms C141_recognises
#print axioms C141_unit_free
#print axioms C141_units_false
#print axioms C141_text
#print axioms C141_counting
#print axioms C141_counting_found
#print axioms C142_matcher
#print axioms C142_one_run
#print axioms C142_layers
#print axioms C142_query
#print axioms C142_doubling
#print axioms C143_sound
#print axioms C143_parses
#print axioms C143_no_chains
#print axioms C143_layers
#print axioms C144_one_run
#print axioms C144_same_attributes
#print axioms C144_query_once
#print axioms C144_stops
#print axioms C144_ends
#print axioms C144_ends_growing
#print axioms C144_order
#print axioms C144_equality_needed
#print axioms C144_size
#print axioms C145_matcher
#print axioms C145_query
#print axioms C145_looking
#print axioms C145_parts
#print axioms C145_expression
#print axioms C145_finders
#print axioms C145_panic_false
#print axioms C145_any_of_false
#print axioms C146_one_run
#print axioms C146_stable
#print axioms C146_unique
#print axioms C146_query
#print axioms C146_order
#print axioms C146_done
#print axioms C146_circles_false
#print axioms C147_one_run
#print axioms C147_same_attributes
#print axioms C147_ends
#print axioms C147_stable
#print axioms C147_loop
#print axioms C147_layer_ends
#print axioms C147_done
#print axioms C147_order
#print axioms C147_early_false
#print axioms C148_matchers
#print axioms C148_lines
#print axioms C148_order
#print axioms C148_token_has_any_false
#print axioms C148_back
#print axioms C148_extend
#print axioms C148_both_ways
#print axioms C148_trim
#print axioms C148_find_by
#print axioms C148_rules
#print axioms C148_query
#print axioms C149_priority
#print axioms C149_again
#print axioms C149_any_of
#print axioms C149_any_of_false
#print axioms C149_order
#print axioms C149_stable
#print axioms C149_overlap_false
#print axioms C149_again_false
#print axioms C15_attr_backwards
#print axioms C15_attr_backwards_exact
#print axioms C150_scan
#print axioms C150_unique
#print axioms C150_panics
#print axioms C150_find_by
#print axioms C150_split_by
#print axioms C150_split_by_false
#print axioms C150_cut
#print axioms C150_cut_false
#print axioms C150_most_false
#print axioms C150_resolver
#print axioms C151_selectable
#print axioms C151_no_new_edges
#print axioms C151_fresh
#print axioms C151_never_apart
#print axioms C151_apart
#print axioms C151_text
#print axioms C151_first_two
#print axioms C151_only_edges_false
#print axioms C152_entries
#print axioms C152_no_panic
#print axioms C152_wrong_type
#print axioms C153_parts
#print axioms C153_edit
#print axioms C153_replace
#print axioms C153_anywhere_false
#print axioms C153_table
#print axioms C153_parts_of_speech
#print axioms C153_keywords
#print axioms C153_lines_ok
#print axioms C153_lines
#print axioms C153_lines_amounts
#print axioms C153_clauses_in_lines_false
#print axioms C154_one_by_one
#print axioms C154_by_type
#print axioms C154_given
#print axioms C154_given_anyway_false
#print axioms C155_parts
#print axioms C155_created
#print axioms C155_resolved
#print axioms C155_single_tokens
#print axioms C155_amounts
#print axioms C155_own_tags_false
#print axioms C156_pipeline
#print axioms C156_text
#print axioms C156_same_type_false
#print axioms C157_parts
#print axioms C157_document
#print axioms C158_wall
#print axioms C158_derivable
#print axioms C158_between
#print axioms C158_exceptions
#print axioms C158_exceptions_between
#print axioms C158_clear_needed
#print axioms C158_document
#print axioms C158_stop_needed
#print axioms C159_parts
#print axioms C159_text
#print axioms C159_document
#print axioms C16_indexes_agree
#print axioms C160_inputs
#print axioms C160_text
#print axioms C161_parts
#print axioms C161_document
#print axioms C161_sentences
#print axioms C162_pipeline
#print axioms C162_text
#print axioms C162_parts
#print axioms C162_document
#print axioms C163_pipeline
#print axioms C163_no_stop_false
#print axioms C163_exceptions_false
#print axioms C163_text
#print axioms C163_parts
#print axioms C163_document
#print axioms C164_parts
#print axioms C164_document
#print axioms C165_together
#print axioms C165_text
#print axioms C165_document
#print axioms C166_stop
#print axioms C166_document
#print axioms C166_rules_false
#print axioms C167_parts
#print axioms C167_document
#print axioms C168_left_out
#print axioms C168_both_run
#print axioms C168_bare_false
#print axioms C168_clauses
#print axioms C168_amounts
#print axioms C168_sentences
#print axioms C169_steps_are_programs
#print axioms C169_parts
#print axioms C169_parts_run
#print axioms C169_document
#print axioms C169_all_types_false
#print axioms C17_run_only_adds
#print axioms C170_parts
#print axioms C170_document
#print axioms C18_matchers_independent
#print axioms C18_types_independent
#print axioms C18_has_any_panics_interfere_false
#print axioms C19_values_accumulate
#print axioms C19_value_count
#print axioms C20_any_attribute_like_run
#print axioms C21_no_downcast_failure
#print axioms C21_extract
#print axioms C22_run_panics_iff
#print axioms C23_honest_run_ok
#print axioms C23_honest_line_ok
#print axioms C24_empty_line
#print axioms C25_tokens_untouched
#print axioms C26_resolvers_commute
#print axioms C27_attr_eq_forwards
#print axioms C27_attr_eq_backwards
#print axioms C27_same_value
#print axioms C27_whitespace
#print axioms C28_token_text
#print axioms C29_never_panics_false
#print axioms C29_partial
#print axioms C30_direction_independent_false
#print axioms C30_partial
#print axioms C31_all2
#print axioms C31_all2_mem
#print axioms C31_order_irrelevant
#print axioms C31_all3_nested
#print axioms C32_any_of2
#print axioms C32_any_of3_nested
#print axioms C33_seq2
#print axioms C33_seq2_exact
#print axioms C33_seq2_panics_iff
#print axioms C33_seq3_nested
#print axioms C33_seq_assoc
#print axioms C34_results_inside
#print axioms C34_results_in_line
#print axioms C35_mirror
#print axioms C36_panics
#print axioms C36_text_only
#print axioms C37_from_line
#print axioms C38_find_by
#print axioms C38_find_by_mem
#print axioms C39_inside_selection_false
#print axioms C39_partial
#print axioms C40_find_first_by
#print axioms C41_both_directions
#print axioms C41_well_formed
#print axioms C42_match_forwards
#print axioms C42_strictly_larger
#print axioms C43_match_backwards
#print axioms C43_strictly_larger
#print axioms C44_after_false
#print axioms C44_after_whole_line
#print axioms C44_partial
#print axioms C45_split_with
#print axioms C46_split_with_panics_iff
#print axioms C46_equality
#print axioms C47_panics_iff
#print axioms C47_split_by
#print axioms C48_pieces_unmatched_false
#print axioms C48_partial
#print axioms C48_exact_partial
#print axioms C49_trim_start
#print axioms C49_trim_end
#print axioms C49_trim
#print axioms C50_trim_end_whole_false
#print axioms C50_partial
#print axioms C51_api_selections
#print axioms C51_builtin_selections
#print axioms C51_after_escapes
#print axioms C52_find
#print axioms C52_find_panics_iff
#print axioms C53_finish_with
#print axioms C54_header
#print axioms C55_display
#print axioms C55_columns
#print axioms C55_summed
#print axioms C55_narrowing
#print axioms C55_bracket
#print axioms C56_include
#print axioms C56_one_line_per_value
#print axioms C57_never_panics
#print axioms C57_panics_iff
#print axioms C57_inverted_false
#print axioms C57_width_needed
#print axioms C58_table
#print axioms C58_run
#print axioms C58_new
#print axioms C58_new_case_insensitive
#print axioms C58_new_case_insensitive_str_arr
#print axioms C59_keeps_entries_false
#print axioms C59_order_matters
#print axioms C59_partial
#print axioms C59_str_arr
#print axioms C60_keywords
#print axioms C60_lowercase_only
#print axioms C61_clause_ranges
#print axioms C61_disjoint
#print axioms C61_any_line
#print axioms C62_clause_kinds
#print axioms C62_pipeline
#print axioms C63_pos
#print axioms C63_words
#print axioms C63_run
#print axioms C63_plain_tags
#print axioms C64_terminates
#print axioms C65_disjoint
#print axioms C65_whole_line
#print axioms C65_inside_selection_false
#print axioms C66_every_number_false
#print axioms C66_partial
#print axioms C66_exact_partial
#print axioms C66_plain
#print axioms C67_amounts
#print axioms C67_value
#print axioms C67_grouped
#print axioms C67_fraction
#print axioms C67_after_fraction
#print axioms C68_panics_iff
#print axioms C68_only_unparseable
#print axioms C68_unparseable_crashes
#print axioms C68_bare_token_crashes
#print axioms C68_run_panics
#print axioms C69_english_tokens
#print axioms C69_english_doc
#print axioms C69_english_doc_false
#print axioms C69_partial
#print axioms C70_french_doc_false
#print axioms C70_no_fraction
#print axioms C70_digits_only
#print axioms C70_partial
#print axioms C71_amount_resolver
#print axioms C71_amount_run_panics_iff
#print axioms C71_builtin_resolvers
#print axioms C72_find_by_seq
#print axioms C73_match_forwards_seq
#print axioms C73_match_backwards_seq
#print axioms C74_find_by_all
#print axioms C74_find_by_any_of
#print axioms C75_layering
#print axioms C76_reported_once_false
#print axioms C76_partial
#print axioms C77_find_by_split_with
#print axioms C78_concat
#print axioms C78_concat_ok
#print axioms C79_attrs_do_not_matter
#print axioms C79_size_does_not_matter
#print axioms C80_slice
#print axioms C80_query_slice
#print axioms C80_find_slice
#print axioms C81_same_text_same_tag_false
#print axioms C81_partial
#print axioms C82_blind
#print axioms C83_independent_resolvers_commute
#print axioms C83_builtin_commute
#print axioms C83_order_matters
#print axioms C84_pipelines
#print axioms C84_only_unparseable
#print axioms C85_twice
#print axioms C85_builtin_twice
#print axioms C85_unchanged_iff
#print axioms C85_not_idempotent
#print axioms C86_symbols
#print axioms C86_plain
#print axioms C86_panics_iff
#print axioms C86_from_string
#print axioms C87_money
#print axioms C87_from_string
#print axioms C88_queries_determine_the_line
#print axioms C88_order_within_types
#print axioms C89_type_bucket
#print axioms C89_type_id_to_many
#print axioms C90_any_of_false
#print axioms C90_partial
#print axioms C90_choice
#print axioms C90_find_partial
#print axioms C91_seq
#print axioms C91_backtracking_false
#print axioms C92_trim_leaves_space
#print axioms C92_trim_partial
#print axioms C92_single_spaces_partial
#print axioms C93_split_again
#print axioms C93_number_of_pieces
#print axioms C93_split_with_self
#print axioms C94_clauses_of_input
#print axioms C94_clauses_of_text
#print axioms C94_plain_text
#print axioms C95_table
#print axioms C95_parts_of_speech
#print axioms C95_keywords
#print axioms C96_amounts_of_text
#print axioms C96_whenever_it_runs
#print axioms C97_any_number_false
#print axioms C97_one_token_partial
#print axioms C97_between_partial
#print axioms C98_documented_words_false
#print axioms C98_no_dashed_words
#print axioms C98_whole_partial
#print axioms C99_any_of_false
#print axioms C99_one_token_partial
#print axioms C99_choice
end LNlp
