import Verif.Props.Accepted
import Verif.Props.Attributes
import Verif.Props.Backends
import Verif.Props.Bases
import Verif.Props.Children
import Verif.Props.Collections
import Verif.Props.Concurrency
import Verif.Props.Config
import Verif.Props.Context
import Verif.Props.Declarations
import Verif.Props.Declared
import Verif.Props.Define
import Verif.Props.Definition
import Verif.Props.Discriminator
import Verif.Props.Effort
import Verif.Props.EmptyString
import Verif.Props.Errors
import Verif.Props.Evolve
import Verif.Props.EvolveWrite
import Verif.Props.Exact
import Verif.Props.ExactNames
import Verif.Props.ExactScopes
import Verif.Props.ExactWrite
import Verif.Props.Excluded
import Verif.Props.FieldOrder
import Verif.Props.Fields
import Verif.Props.Flow
import Verif.Props.Generic
import Verif.Props.Hidden
import Verif.Props.History
import Verif.Props.Hooks
import Verif.Props.Identity
import Verif.Props.Indent
import Verif.Props.Injective
import Verif.Props.Invariance
import Verif.Props.Lexical
import Verif.Props.Lines
import Verif.Props.Local
import Verif.Props.Lossless
import Verif.Props.Meanwhile
import Verif.Props.Modes
import Verif.Props.MoveLines
import Verif.Props.Names
import Verif.Props.Nillable
import Verif.Props.Omit
import Verif.Props.OnlyTaken
import Verif.Props.Order
import Verif.Props.OrderValues
import Verif.Props.Paths
import Verif.Props.Pi
import Verif.Props.PiStrict
import Verif.Props.Pieces
import Verif.Props.Place
import Verif.Props.Program
import Verif.Props.ProgramVocabulary
import Verif.Props.Reading
import Verif.Props.Registry
import Verif.Props.Rekey
import Verif.Props.Rename
import Verif.Props.Retag
import Verif.Props.Retext
import Verif.Props.RootField
import Verif.Props.RoundTrip
import Verif.Props.Search
import Verif.Props.SetFields
import Verif.Props.Shape
import Verif.Props.Sides
import Verif.Props.SkipEmpty
import Verif.Props.Special
import Verif.Props.Stable
import Verif.Props.StableComputed
import Verif.Props.StableProgram
import Verif.Props.StrictCut
import Verif.Props.Stricter
import Verif.Props.SubDoc
import Verif.Props.SubModel
import Verif.Props.Text
import Verif.Props.TupleList
import Verif.Props.Typed
import Verif.Props.TypedProgram
import Verif.Props.TypedText
import Verif.Props.UnionErrors
import Verif.Props.Unions
import Verif.Props.Unread
import Verif.Props.Vocabulary
import Verif.Props.Wrapped
import Verif.Props.Writing

/-!
# The axioms every property theorem depends on

The build prints them: `propext`, `Classical.choice`, `Quot.sound` at most.
-/

#print axioms PXml.Bases.C58_counterexample
#print axioms PXml.C01_round_trip
#print axioms PXml.C02_nothing_left
#print axioms PXml.C03_C04_C05_look_behind
#print axioms PXml.C03_strict_hit
#print axioms PXml.C03_strict_miss
#print axioms PXml.C04_history_in_document_order
#print axioms PXml.C04_ordered_hit
#print axioms PXml.C04_ordered_miss
#print axioms PXml.C05_history_conserves
#print axioms PXml.C05_unordered_hit
#print axioms PXml.C05_unordered_miss
#print axioms PXml.C05_unordered_succeeds_iff
#print axioms PXml.C06_children_kept
#print axioms PXml.C06_content_conserved
#print axioms PXml.C06_delivered_once
#print axioms PXml.C06_no_sharing
#print axioms PXml.C06_root_children_kept
#print axioms PXml.C07_foreign_data_never_validated
#print axioms PXml.C07_nothing_invented
#print axioms PXml.C08_C09_unordered_partial
#print axioms PXml.C08_C09_unordered_values_partial
#print axioms PXml.C08_ordered_counterexample
#print axioms PXml.C08_ordered_partial
#print axioms PXml.C08_ordered_values_partial
#print axioms PXml.C08_unordered_counterexample
#print axioms PXml.C08_unordered_partial
#print axioms PXml.C09_counterexample
#print axioms PXml.C09_order_irrelevant_partial
#print axioms PXml.C09_values_partial
#print axioms PXml.C100_definitions
#print axioms PXml.C100_program
#print axioms PXml.C100_reading
#print axioms PXml.C100_rejected
#print axioms PXml.C100_writing
#print axioms PXml.C101_reading
#print axioms PXml.C101_writing
#print axioms PXml.C102_reading
#print axioms PXml.C102_reading_goes_on
#print axioms PXml.C102_writing
#print axioms PXml.C102_writing_goes_on
#print axioms PXml.C103_definitions
#print axioms PXml.C103_program
#print axioms PXml.C103_reading
#print axioms PXml.C103_rejected
#print axioms PXml.C103_writing
#print axioms PXml.C104_reading
#print axioms PXml.C104_writing
#print axioms PXml.C105_only_empty_texts
#print axioms PXml.C106_lines_move
#print axioms PXml.C106_only_lines
#print axioms PXml.C107_counterexample
#print axioms PXml.C107_ordered_partial
#print axioms PXml.C107_ordered_values_partial
#print axioms PXml.C107_strict_partial
#print axioms PXml.C107_unordered_partial
#print axioms PXml.C107_unordered_values_partial
#print axioms PXml.C108_foreign_last
#print axioms PXml.C108_hidden
#print axioms PXml.C108_strict_cut
#print axioms PXml.C10_comments_invisible
#print axioms PXml.C10_comments_removed_partial
#print axioms PXml.C10_counterexample
#print axioms PXml.C11_first_success
#print axioms PXml.C11_only_success
#print axioms PXml.C12_absent
#print axioms PXml.C12_errors_partial
#print axioms PXml.C12_names
#print axioms PXml.C12_reported
#print axioms PXml.C13_accepts_only_if_read
#print axioms PXml.C13_from_xml
#print axioms PXml.C13_nothing_else
#print axioms PXml.C13_reports_leftovers
#print axioms PXml.C13_stripped
#print axioms PXml.C13_unread_rejected
#print axioms PXml.C14_aggregates
#print axioms PXml.C14_from_xml
#print axioms PXml.C14_no_failure
#print axioms PXml.C15_C34_items
#print axioms PXml.C15_tuples
#print axioms PXml.C16_alias_counterexample
#print axioms PXml.C16_counterexample
#print axioms PXml.C16_every_error_has_a_line_partial
#print axioms PXml.C16_field_line_partial
#print axioms PXml.C16_item_line_partial
#print axioms PXml.C16_line_known_partial
#print axioms PXml.C16_submodel_line_partial
#print axioms PXml.C16_tagged_line_partial
#print axioms PXml.C16_tuple_line_partial
#print axioms PXml.C16_union_line_partial
#print axioms PXml.C17_counterexample_mapping
#print axioms PXml.C17_counterexample_mapping_skip
#print axioms PXml.C17_counterexample_tagged
#print axioms PXml.C17_exact
#print axioms PXml.C17_fields
#print axioms PXml.C17_model_partial
#print axioms PXml.C17_none_partial
#print axioms PXml.C18_unset
#print axioms PXml.C18_unset_root
#print axioms PXml.C19_skip_empty_partial
#print axioms PXml.C20_definition
#print axioms PXml.C20_never_read
#print axioms PXml.C20_removal
#print axioms PXml.C21_document
#print axioms PXml.C21_excluded
#print axioms PXml.C21_not_xml
#print axioms PXml.C21_read
#print axioms PXml.C21_read_document
#print axioms PXml.C22_C28_only_validation_errors
#print axioms PXml.C22_output_accepted
#print axioms PXml.C22_written_name
#print axioms PXml.C23_C27_class
#print axioms PXml.C23_C27_field
#print axioms PXml.C23_attribute
#print axioms PXml.C24_hypotheses_needed
#print axioms PXml.C24_parse_uri
#print axioms PXml.C24_uri_injective
#print axioms PXml.C24_uri_parse
#print axioms PXml.C25_grouping
#print axioms PXml.C25_last_wins
#print axioms PXml.C25_nsmap_union
#print axioms PXml.C26_nearest_wins
#print axioms PXml.C26_nsmap_accumulates
#print axioms PXml.C28_accepted_reads
#print axioms PXml.C28_class_accepted
#print axioms PXml.C28_counterexample_list_of_tuples
#print axioms PXml.C28_field_accepted
#print axioms PXml.C28_rejected
#print axioms PXml.C29_counterexample
#print axioms PXml.C29_empty_as_string_partial
#print axioms PXml.C29_never_ends
#print axioms PXml.C29_reading_terminates
#print axioms PXml.C30_attribute_name
#print axioms PXml.C30_instance_not_nil_partial
#print axioms PXml.C30_nil_is_none
#print axioms PXml.C30_none_is_nil
#print axioms PXml.C30_none_round_trip
#print axioms PXml.C30_value_not_nil
#print axioms PXml.C31_open
#print axioms PXml.C31_read
#print axioms PXml.C31_share
#print axioms PXml.C31_write
#print axioms PXml.C31_write_none
#print axioms PXml.C32_read
#print axioms PXml.C32_read_document
#print axioms PXml.C32_round_trip
#print axioms PXml.C32_write
#print axioms PXml.C33_absent
#print axioms PXml.C33_absent_any_mode
#print axioms PXml.C33_definition
#print axioms PXml.C33_first
#print axioms PXml.C33_selects
#print axioms PXml.C33_strict
#print axioms PXml.C34_one_child
#print axioms PXml.C34_texts_in_order
#print axioms PXml.C34_written_order
#print axioms PXml.C35_attributes
#print axioms PXml.C35_element
#print axioms PXml.C35_none_is_text
#print axioms PXml.C35_texts
#print axioms PXml.C36_attributes_partial
#print axioms PXml.C36_children
#print axioms PXml.C36_counterexample
#print axioms PXml.C36_exact_dict
#print axioms PXml.C36_text
#print axioms PXml.C37_field_order
#print axioms PXml.C38_backends_read_alike
#print axioms PXml.C38_backends_write_alike
#print axioms PXml.C39_element
#print axioms PXml.C39_missing
#print axioms PXml.C39_text
#print axioms PXml.C40_blank_tails_irrelevant
#print axioms PXml.C40_tails_irrelevant
#print axioms PXml.C41_at_end
#print axioms PXml.C41_at_end_model
#print axioms PXml.C41_finds_last_only
#print axioms PXml.C41_read
#print axioms PXml.C41_read_start
#print axioms PXml.C42_inherit
#print axioms PXml.C42_override
#print axioms PXml.C43_absent
#print axioms PXml.C43_others_undisturbed
#print axioms PXml.C45_counterexample
#print axioms PXml.C45_stranger_rejected_partial
#print axioms PXml.C46_counterexample_farther_wins
#print axioms PXml.C46_exact
#print axioms PXml.C46_exact_attribute
#print axioms PXml.C46_exact_wrapped
#print axioms PXml.C46_nearest_wins_partial
#print axioms PXml.C47_counterexample_no_declarations
#print axioms PXml.C47_exact
#print axioms PXml.C47_exact_model
#print axioms PXml.C47_exact_raw
#print axioms PXml.C47_exact_wrapped
#print axioms PXml.C47_undeclared_rejected_partial
#print axioms PXml.C48_transparent
#print axioms PXml.C49_class_terminates_partial
#print axioms PXml.C49_counterexample_recursive_named_tuple
#print axioms PXml.C49_field_terminates_partial
#print axioms PXml.C50_attribute
#print axioms PXml.C50_element
#print axioms PXml.C50_injective
#print axioms PXml.C50_text
#print axioms PXml.C52_declared_lxml
#print axioms PXml.C52_declared_std
#print axioms PXml.C53_definition
#print axioms PXml.C53_read
#print axioms PXml.C53_write
#print axioms PXml.C54_last
#print axioms PXml.C54_names
#print axioms PXml.C54_table
#print axioms PXml.C54_xsi
#print axioms PXml.C55_exact
#print axioms PXml.C55_inherited
#print axioms PXml.C55_read
#print axioms PXml.C55_serializer_partial
#print axioms PXml.C55_validator_partial
#print axioms PXml.C55_write
#print axioms PXml.C56_alike
#print axioms PXml.C56_complete
#print axioms PXml.C56_incomplete
#print axioms PXml.C56_order
#print axioms PXml.C56_stays
#print axioms PXml.C57_circle
#print axioms PXml.C57_constructible
#print axioms PXml.C57_recursive_partial
#print axioms PXml.C57_recursive_union
#print axioms PXml.C57_when
#print axioms PXml.C58_first_base_partial
#print axioms PXml.C58_nearest_partial
#print axioms PXml.C59_foreign_attributes
#print axioms PXml.C60_prefixes_irrelevant
#print axioms PXml.C63_other_shape_rejected
#print axioms PXml.C63_succeeds_iff
#print axioms PXml.C63_terminates
#print axioms PXml.C65_attr
#print axioms PXml.C65_computed_attr_partial
#print axioms PXml.C65_computed_element_partial
#print axioms PXml.C65_counterexample_decorator_reuse
#print axioms PXml.C65_counterexample_wrapped_alias
#print axioms PXml.C65_element
#print axioms PXml.C65_nested
#print axioms PXml.C65_wrapped
#print axioms PXml.C65_wrapped_alias_partial
#print axioms PXml.C65_wrapped_alone
#print axioms PXml.C66_counterexample
#print axioms PXml.C66_parameters
#print axioms PXml.C66_same_class
#print axioms PXml.C67_comparison
#print axioms PXml.C67_release
#print axioms PXml.C68_library
#print axioms PXml.C68_read_alike
#print axioms PXml.C68_read_alike_raw
#print axioms PXml.C68_text_round_trip
#print axioms PXml.C68_text_round_trip_raw
#print axioms PXml.C69_blank
#print axioms PXml.C69_pretty_round_trip
#print axioms PXml.C69_texts_nobody_takes
#print axioms PXml.C69_white_space
#print axioms PXml.C70_program_exists
#print axioms PXml.C70_program_works
#print axioms PXml.C71_import
#print axioms PXml.C71_strtobool
#print axioms PXml.C73_generic_partial
#print axioms PXml.C74_pretty
#print axioms PXml.C74_program
#print axioms PXml.C74_program_pretty
#print axioms PXml.C74_program_text
#print axioms PXml.C74_pydantic_declared
#print axioms PXml.C74_pydantic_exists
#print axioms PXml.C74_round_trip
#print axioms PXml.C74_text
#print axioms PXml.C74_text_raw
#print axioms PXml.C75_class
#print axioms PXml.C75_field
#print axioms PXml.C75_program
#print axioms PXml.C76_program
#print axioms PXml.C76_vocabulary
#print axioms PXml.C77_definitions
#print axioms PXml.C77_flag
#print axioms PXml.C77_program
#print axioms PXml.C77_read
#print axioms PXml.C77_rejected
#print axioms PXml.C77_write
#print axioms PXml.C78_program
#print axioms PXml.C78_text
#print axioms PXml.C78_trees
#print axioms PXml.C79_counterexample_raw
#print axioms PXml.C79_definitions
#print axioms PXml.C79_program
#print axioms PXml.C79_read
#print axioms PXml.C79_rejected
#print axioms PXml.C79_write
#print axioms PXml.C80_canonical
#print axioms PXml.C80_canonical_text
#print axioms PXml.C80_counterexample_none
#print axioms PXml.C80_counterexample_union
#print axioms PXml.C80_pretty
#print axioms PXml.C80_program
#print axioms PXml.C80_program_pretty
#print axioms PXml.C80_program_text
#print axioms PXml.C80_pydantic_declared
#print axioms PXml.C80_pydantic_exists
#print axioms PXml.C80_reread
#print axioms PXml.C80_text
#print axioms PXml.C80_text_raw
#print axioms PXml.C81_old_documents
#print axioms PXml.C82_set_fields_irrelevant
#print axioms PXml.C83_less_output_partial
#print axioms PXml.C84_errors
#print axioms PXml.C84_field_outcomes
#print axioms PXml.C84_values
#print axioms PXml.C85_written_as_before
#print axioms PXml.C86_nothing_lost
#print axioms PXml.C87_field_order
#print axioms PXml.C88_only_what_is_taken
#print axioms PXml.C89_place
#print axioms PXml.C89_place_root
#print axioms PXml.C89_sub_model
#print axioms PXml.C90_sub_document
#print axioms PXml.C90_sub_document_root
#print axioms PXml.C91_every_instance
#print axioms PXml.C92_insisting_needed
#print axioms PXml.C92_same_output
#print axioms PXml.C92_same_values
#print axioms PXml.C93_fresh_needed
#print axioms PXml.C93_read
#print axioms PXml.C93_root_read
#print axioms PXml.C93_root_write
#print axioms PXml.C93_write
#print axioms PXml.C94_read
#print axioms PXml.C94_write
#print axioms PXml.C95_only_reject
#print axioms PXml.C95_still_rejected
#print axioms PXml.C95_unions_needed
#print axioms PXml.C96_end_needed
#print axioms PXml.C96_list_as_tuple
#print axioms PXml.C96_tuple_as_list
#print axioms PXml.C96_write
#print axioms PXml.C97_definitions_reading
#print axioms PXml.C97_definitions_writing
#print axioms PXml.C97_program_reading
#print axioms PXml.C97_program_writing
#print axioms PXml.C97_reading
#print axioms PXml.C97_rejected
#print axioms PXml.C97_writing
#print axioms PXml.C98_definitions
#print axioms PXml.C98_exclude_needed
#print axioms PXml.C98_nil_needed
#print axioms PXml.C98_program
#print axioms PXml.C98_reading
#print axioms PXml.C98_rejected
#print axioms PXml.C98_writing
#print axioms PXml.C99_reading
#print axioms PXml.C99_writing
#print axioms PXml.C99_writing_submodel
#print axioms PXml.Conc.C62_inputs_untouched
#print axioms PXml.Conc.C62_no_waiting
#print axioms PXml.Conc.C62_outputs_separate
#print axioms PXml.Conc.C62_same_result
#print axioms PXml.Def.C57_counterexample
#print axioms PXml.Ex.C01_all_sheets
#print axioms PXml.Ex.C01_all_trees
#print axioms PXml.Ex.C01_counterexample_apart
#print axioms PXml.Ex.C01_counterexample_computed
#print axioms PXml.Ex.C01_counterexample_skip
#print axioms PXml.Ex.C01_counterexample_tuple
#print axioms PXml.Ex.C12_counterexample
#print axioms PXml.Ex.C19_counterexample_declared
#print axioms PXml.Ex.C19_counterexample_raw
#print axioms PXml.Ex.C19_counterexample_wrapped
#print axioms PXml.Ex.C30_counterexample
#print axioms PXml.Ex.C32_tag_needed
#print axioms PXml.Ex.C33_order_needed
#print axioms PXml.Ex.C34_counterexample
#print axioms PXml.Ex.C55_counterexample
#print axioms PXml.Ex.C68_empty_text_lost
#print axioms PXml.Ex.C69_text_field_gets_indentation
#print axioms PXml.Ex.C83_counterexample_attributes
#print axioms PXml.Ex.C83_counterexample_raw
#print axioms PXml.Ex.C83_counterexample_wrapped
#print axioms PXml.Ex.C86_discriminator_needed
#print axioms PXml.Ex.C87_single_needed
#print axioms PXml.Ex.C90_through_needed
#print axioms PXml.Ex.C91_nil_counts
#print axioms PXml.Gen.C73_counterexample_root
#print axioms PXml.Heap.C44_instance_unchanged
#print axioms PXml.Heap.C44_output_separate
#print axioms PXml.Heap.C44_read_again
#print axioms PXml.Heap.C44_tree_unchanged
#print axioms PXml.Heap.C44_write_again
#print axioms PXml.Heap.C51_every_field
#print axioms PXml.Heap.C51_every_field_written
#print axioms PXml.Heap.C51_same_output
#print axioms PXml.Heap.C51_same_result
#print axioms PXml.Heap.C51_snapshot
#print axioms PXml.Mypy.C72_arguments_partial
#print axioms PXml.Mypy.C72_counterexample_both
#print axioms PXml.Mypy.C72_counterexample_frozen
#print axioms PXml.Mypy.C72_counterexample_names
#print axioms PXml.Mypy.C72_counterexample_wrapped
#print axioms PXml.Mypy.C72_has_default_partial
#print axioms PXml.Mypy.C72_others_partial
#print axioms PXml.Mypy.C72_recognised
#print axioms PXml.Threaded.C61_context_built_in
#print axioms PXml.Threaded.C61_context_in_every_call
#print axioms PXml.Threaded.C61_no_other_context
#print axioms PXml.Threaded.C64_once_per_element
#print axioms PXml.Threaded.Ex.C64_exponential_with_unions
#print axioms PXml.TypedEx.C82_exclude_unset_differs
