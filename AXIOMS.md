# Axioms of the property theorems

Written by `tools/gen_axioms.py`. The three axioms are those of Lean itself; the development adds none.

## no axioms (1 theorems)

* Gopoet.C45_newReceiver

## propext (28 theorems)

* Gopoet.C06_less_is_lexicographic
* Gopoet.C15_nil
* Gopoet.C15_unsafePointer
* Gopoet.C17_full_fails
* Gopoet.C17_full_fails_channel
* Gopoet.C38_file_system
* Gopoet.C39_alias
* Gopoet.C39_from_named
* Gopoet.C39_interface
* Gopoet.C39_newTypeSpec
* Gopoet.C40_full_fails
* Gopoet.C41_empty_panics
* Gopoet.C41_value_spec
* Gopoet.C45_accepts_full_fails
* Gopoet.C45_interface_method_without_type
* Gopoet.C45_method_without_file
* Gopoet.C45_newPointerReceiverForType_partial
* Gopoet.C45_newReceiverForType_partial
* Gopoet.C45_no_hang
* Gopoet.C47_new
* Gopoet.C47_signature
* Gopoet.C48_new
* Gopoet.C49_initialize
* Gopoet.C49_new
* Gopoet.C50_new_block
* Gopoet.C54_function_type_follows
* Gopoet.C71_addElement
* Gopoet.C77_statement

## Quot.sound, propext (134 theorems)

* Gopoet.C04_base_is_last_element
* Gopoet.C13_no_writes
* Gopoet.C13_no_writes_qualify
* Gopoet.C13_no_writes_qualify_signature
* Gopoet.C13_no_writes_signature
* Gopoet.C13_signatures_keep
* Gopoet.C13_values_keep
* Gopoet.C15_accessors
* Gopoet.C16_returns_or_panics
* Gopoet.C18_full_fails
* Gopoet.C18_full_fails_path_base
* Gopoet.C23_full_fails
* Gopoet.C23_universe_types_panic
* Gopoet.C24_full_fails
* Gopoet.C24_full_fails_embedded
* Gopoet.C24_full_fails_maps
* Gopoet.C24_full_fails_methods
* Gopoet.C24_full_fails_results
* Gopoet.C24_kind
* Gopoet.C24_named
* Gopoet.C25_full_fails
* Gopoet.C25_interface_literal
* Gopoet.C25_methods_iff
* Gopoet.C25_refers_iff_partial
* Gopoet.C25_refers_partial
* Gopoet.C26_empty
* Gopoet.C26_only_comments
* Gopoet.C26_reads_back
* Gopoet.C31_full_fails
* Gopoet.C32_addCode
* Gopoet.C32_print_survives_qualification
* Gopoet.C32_printf_no_text
* Gopoet.C32_printf_other
* Gopoet.C32_printlnf
* Gopoet.C32_prints
* Gopoet.C32_sequence
* Gopoet.C33_full_fails
* Gopoet.C34_field_text_partial
* Gopoet.C34_value_text_partial
* Gopoet.C36_panic_writes_nothing
* Gopoet.C36_writeGoFile
* Gopoet.C37_always_fails
* Gopoet.C37_empty_gopath_partial
* Gopoet.C37_fails
* Gopoet.C38_below_root
* Gopoet.C38_clean_package_path
* Gopoet.C38_directory
* Gopoet.C38_last_element
* Gopoet.C38_path_elements
* Gopoet.C39_alias_text
* Gopoet.C39_from_unnamed
* Gopoet.C39_newTypeSpec_total
* Gopoet.C39_struct
* Gopoet.C42_full_fails_for_arrays
* Gopoet.C42_full_fails_for_interface_pointers
* Gopoet.C42_full_fails_for_keys
* Gopoet.C42_full_fails_for_specs
* Gopoet.C42_full_fails_for_unexported_fields
* Gopoet.C42_given
* Gopoet.C42_imports
* Gopoet.C42_spec_kept_partial
* Gopoet.C42_specs_iff_partial
* Gopoet.C44_full_fails
* Gopoet.C44_types_full_fails
* Gopoet.C45_func_type
* Gopoet.C45_interface_method_ref
* Gopoet.C45_interface_method_type
* Gopoet.C45_method_type
* Gopoet.C47_func
* Gopoet.C47_method
* Gopoet.C48_elements
* Gopoet.C48_specs
* Gopoet.C49_decl
* Gopoet.C49_embed
* Gopoet.C49_field
* Gopoet.C49_file
* Gopoet.C49_func
* Gopoet.C49_type
* Gopoet.C49_value
* Gopoet.C50_block_text
* Gopoet.C50_func_text
* Gopoet.C51_data_keeps
* Gopoet.C51_no_writes
* Gopoet.C51_types_keep
* Gopoet.C52_pointers
* Gopoet.C53_full_fails_for_cycles
* Gopoet.C54_full_fails_for_copies
* Gopoet.C54_full_fails_for_function_types
* Gopoet.C54_full_fails_for_signatures_of_types
* Gopoet.C54_room
* Gopoet.C57_full_fails_for_cycles
* Gopoet.C58_fails
* Gopoet.C59_exported_fields
* Gopoet.C59_full_fails
* Gopoet.C59_hidden_fields
* Gopoet.C59_like_numbers
* Gopoet.C60_lengths
* Gopoet.C61_call
* Gopoet.C61_condition
* Gopoet.C61_dot
* Gopoet.C61_len
* Gopoet.C61_loop
* Gopoet.C61_loop_map
* Gopoet.C61_parts_in_order
* Gopoet.C61_reflect_partial
* Gopoet.C61_test
* Gopoet.C62_full_fails
* Gopoet.C62_method_unused
* Gopoet.C64_full_fails
* Gopoet.C65_same_type_partial
* Gopoet.C66_full_fails
* Gopoet.C67_full_fails
* Gopoet.C68_bound_higher
* Gopoet.C68_bound_irrelevant
* Gopoet.C68_intended
* Gopoet.C72_full_fails
* Gopoet.C75_full_fails
* Gopoet.C75_no_directives
* Gopoet.C76_body
* Gopoet.C76_comment
* Gopoet.C76_fields
* Gopoet.C76_line
* Gopoet.C76_methods
* Gopoet.C76_types
* Gopoet.C76_values
* Gopoet.C78_comments
* Gopoet.C79_full_fails
* Gopoet.C79_full_fails_for_entries
* Gopoet.C79_kept_or_lost
* Gopoet.C79_like_numbers
* Gopoet.C79_no_nan
* Gopoet.C79_not_seen
* Gopoet.C80_receiver
* Gopoet.C80_values_needed

## Classical.choice, Quot.sound, propext (253 theorems)

* Gopoet.C01_prefix_shape
* Gopoet.C01_prefixes_unique
* Gopoet.C01_prefixes_unique_over_time
* Gopoet.C02_prefix_stable
* Gopoet.C02_symbol_stable
* Gopoet.C03_own_package
* Gopoet.C04_first_free_candidate
* Gopoet.C04_registerImport_returns
* Gopoet.C05_prefixForPackage
* Gopoet.C05_qualify
* Gopoet.C05_qualifySignature
* Gopoet.C05_qualifyType
* Gopoet.C06_order_irrelevant
* Gopoet.C06_sorted_set
* Gopoet.C07_alias_iff_different
* Gopoet.C07_imports_bind_prefixes
* Gopoet.C08_ensureImported
* Gopoet.C09_ensureAllTypesImported_idempotent
* Gopoet.C09_ensureImported_idempotent
* Gopoet.C09_ensureTypeImported_idempotent
* Gopoet.C10_only_symbols_change
* Gopoet.C10_only_symbols_change_signature
* Gopoet.C11_imports_exactly_mentioned
* Gopoet.C11_imports_exactly_mentioned_signature
* Gopoet.C12_qualify_constructible
* Gopoet.C12_string_qualified_returns
* Gopoet.C12_string_returns
* Gopoet.C13_identical_iff_equal
* Gopoet.C13_identical_iff_equal_signature
* Gopoet.C13_identical_iff_settled
* Gopoet.C13_identical_iff_settled_signature
* Gopoet.C14_no_aliases
* Gopoet.C14_order_iff
* Gopoet.C14_order_independent
* Gopoet.C16_panics_exactly
* Gopoet.C17_parses_back_iff
* Gopoet.C17_parses_back_partial
* Gopoet.C17_shape
* Gopoet.C17_signature_parses_back_iff
* Gopoet.C17_signature_parses_back_partial
* Gopoet.C17_text_determines_type_partial
* Gopoet.C18_imports_are_identifiers
* Gopoet.C18_qualified_text_means_type_iff
* Gopoet.C18_qualified_text_means_type_partial
* Gopoet.C19_no_control
* Gopoet.C19_printable
* Gopoet.C19_tags_survive
* Gopoet.C20_parameter_lists
* Gopoet.C21_export
* Gopoet.C21_export_idempotent_partial
* Gopoet.C21_export_panics
* Gopoet.C21_exported_iff_partial
* Gopoet.C21_exported_partial
* Gopoet.C21_exported_unchanged
* Gopoet.C21_full_fails
* Gopoet.C21_unchanged_iff
* Gopoet.C22_ascii
* Gopoet.C22_export_unexport
* Gopoet.C22_unexport
* Gopoet.C22_unexport_idempotent
* Gopoet.C22_unexport_panics
* Gopoet.C23_converts_iff
* Gopoet.C23_faithful_partial
* Gopoet.C24_basic
* Gopoet.C24_faithful_iff
* Gopoet.C24_faithful_partial
* Gopoet.C27_newGoFile
* Gopoet.C28_func
* Gopoet.C28_func_text
* Gopoet.C28_panics_before
* Gopoet.C28_string
* Gopoet.C28_type
* Gopoet.C28_value
* Gopoet.C29_file_comment_apart
* Gopoet.C29_layout
* Gopoet.C30_all_imported_partial
* Gopoet.C30_exactly_partial
* Gopoet.C30_full_fails
* Gopoet.C30_qualifiers_resolve_partial
* Gopoet.C30_specs_resolve_partial
* Gopoet.C31_again_iff_partial
* Gopoet.C31_again_partial
* Gopoet.C31_forever_partial
* Gopoet.C31_settled_after_two
* Gopoet.C32_printf
* Gopoet.C33_file_partial
* Gopoet.C33_object_left
* Gopoet.C33_reference_text_iff
* Gopoet.C33_reference_text_partial
* Gopoet.C33_signature
* Gopoet.C34_full_fails
* Gopoet.C34_full_fails_for_fields
* Gopoet.C34_never_registered
* Gopoet.C34_valid_iff_partial
* Gopoet.C35_closed_once
* Gopoet.C35_nil_iff_all_written
* Gopoet.C35_session
* Gopoet.C39_interface_renders_iff
* Gopoet.C39_interface_renders_partial
* Gopoet.C39_newTypeSpec_renders_iff
* Gopoet.C39_newTypeSpec_renders_partial
* Gopoet.C39_struct_renders_iff
* Gopoet.C39_struct_renders_partial
* Gopoet.C40_tag_apart
* Gopoet.C40_tag_iff
* Gopoet.C40_tag_partial
* Gopoet.C40_tag_spec
* Gopoet.C40_tag_unnamed_iff
* Gopoet.C41_types
* Gopoet.C41_types_parse
* Gopoet.C41_types_parse_iff
* Gopoet.C41_values
* Gopoet.C42_all_imported
* Gopoet.C42_exactly_partial
* Gopoet.C42_plain_data_partial
* Gopoet.C42_result_iff_partial
* Gopoet.C42_result_partial
* Gopoet.C42_returns_iff_partial
* Gopoet.C42_returns_partial
* Gopoet.C42_same_value
* Gopoet.C43_file_partial
* Gopoet.C43_full_fails
* Gopoet.C43_import_statements
* Gopoet.C43_imports_order
* Gopoet.C43_named_partial
* Gopoet.C43_one_referring_partial
* Gopoet.C43_same_imports_partial
* Gopoet.C43_same_order_partial
* Gopoet.C43_statements_iff_partial
* Gopoet.C44_alias_breaks
* Gopoet.C44_files_iff_partial
* Gopoet.C44_files_partial
* Gopoet.C44_files_resolve_partial
* Gopoet.C44_original_resolves
* Gopoet.C44_same_as_original
* Gopoet.C44_same_packages
* Gopoet.C44_types_iff_partial
* Gopoet.C44_types_partial
* Gopoet.C45_header_iff
* Gopoet.C45_header_partial
* Gopoet.C46_newPackage
* Gopoet.C46_newPackage_no_element
* Gopoet.C46_newSymbol
* Gopoet.C50_rendered
* Gopoet.C52_same_value
* Gopoet.C52_sharing_irrelevant
* Gopoet.C53_never_returns_for_cycles
* Gopoet.C53_returns_iff
* Gopoet.C53_terminates_partial
* Gopoet.C53_trees_have_no_cycles
* Gopoet.C54_plain_partial
* Gopoet.C54_types_keep_partial
* Gopoet.C54_values_partial
* Gopoet.C55_file_parses
* Gopoet.C55_rendered_file
* Gopoet.C55_written_file
* Gopoet.C56_written_file_means_input
* Gopoet.C57_never_return_for_cyclic_signatures
* Gopoet.C57_never_return_for_cyclic_types
* Gopoet.C57_signatures_terminate_partial
* Gopoet.C57_trees_have_no_cycles
* Gopoet.C57_types_terminate_partial
* Gopoet.C58_disk_partial
* Gopoet.C58_others
* Gopoet.C58_possible
* Gopoet.C58_stopped
* Gopoet.C59_exactly_partial
* Gopoet.C59_result_partial
* Gopoet.C59_returns_iff_partial
* Gopoet.C60_exactly_partial
* Gopoet.C60_given_lists
* Gopoet.C60_own_lists
* Gopoet.C60_values_partial
* Gopoet.C61_code_partial
* Gopoet.C61_exactly_partial
* Gopoet.C61_file_code_partial
* Gopoet.C61_file_partial
* Gopoet.C61_goType_iff
* Gopoet.C61_shown_partial
* Gopoet.C61_spec_text
* Gopoet.C61_template_partial
* Gopoet.C62_imports_iff
* Gopoet.C62_no_unused_partial
* Gopoet.C62_text_partial
* Gopoet.C62_used_iff_partial
* Gopoet.C63_any_order
* Gopoet.C63_changes_only
* Gopoet.C63_depends_only
* Gopoet.C63_in_turn
* Gopoet.C63_undisturbed
* Gopoet.C64_name_iff_partial
* Gopoet.C64_names_partial
* Gopoet.C65_full_fails
* Gopoet.C65_gotypes_iff_partial
* Gopoet.C65_reflect_iff_partial
* Gopoet.C66_code_iff_partial
* Gopoet.C66_file_iff_partial
* Gopoet.C66_template_file_iff_partial
* Gopoet.C66_template_iff_partial
* Gopoet.C66_text_partial
* Gopoet.C67_file_partial
* Gopoet.C67_iff_partial
* Gopoet.C68_again
* Gopoet.C68_intended_executes
* Gopoet.C68_intended_file
* Gopoet.C68_qualified
* Gopoet.C68_written
* Gopoet.C68_written_executes
* Gopoet.C68_written_lines
* Gopoet.C69_disk
* Gopoet.C69_package
* Gopoet.C69_possible
* Gopoet.C69_possible_each
* Gopoet.C70_first_free
* Gopoet.C70_kept_iff
* Gopoet.C70_no_aliases
* Gopoet.C70_text
* Gopoet.C71_added
* Gopoet.C72_file_partial
* Gopoet.C72_iff_partial
* Gopoet.C72_template_iff_partial
* Gopoet.C73_order
* Gopoet.C73_same_text
* Gopoet.C73_some
* Gopoet.C74_parts
* Gopoet.C74_source_text
* Gopoet.C75_constraints_partial
* Gopoet.C75_unconstrained_iff_partial
* Gopoet.C75_unconstrained_partial
* Gopoet.C76_elements
* Gopoet.C76_imports
* Gopoet.C76_interface
* Gopoet.C76_package
* Gopoet.C76_struct
* Gopoet.C76_type_group
* Gopoet.C77_string_different
* Gopoet.C77_string_reads
* Gopoet.C77_whole_file
* Gopoet.C78_apart
* Gopoet.C78_disk
* Gopoet.C78_documented
* Gopoet.C78_file
* Gopoet.C78_members
* Gopoet.C78_package
* Gopoet.C78_package_program
* Gopoet.C78_package_written
* Gopoet.C78_program
* Gopoet.C78_type_members
* Gopoet.C78_written
* Gopoet.C79_result_partial
* Gopoet.C80_in_the_end
* Gopoet.C80_values
* Gopoet.C80_written
