{
 "claims": [
  {
   "property": "C01",
   "status": "proved",
   "theorems": [
    "Gopoet.C01_prefixes_unique",
    "Gopoet.C01_prefixes_unique_over_time",
    "Gopoet.C01_prefix_shape"
   ],
   "note": ""
  },
  {
   "property": "C02",
   "status": "proved",
   "theorems": [
    "Gopoet.C02_prefix_stable",
    "Gopoet.C02_symbol_stable"
   ],
   "note": ""
  },
  {
   "property": "C03",
   "status": "proved",
   "theorems": [
    "Gopoet.C03_own_package"
   ],
   "note": ""
  },
  {
   "property": "C04",
   "status": "proved",
   "theorems": [
    "Gopoet.C04_first_free_candidate",
    "Gopoet.C04_registerImport_returns",
    "Gopoet.C04_base_is_last_element"
   ],
   "note": ""
  },
  {
   "property": "C05",
   "status": "proved",
   "theorems": [
    "Gopoet.C05_prefixForPackage",
    "Gopoet.C05_qualify",
    "Gopoet.C05_qualifyType",
    "Gopoet.C05_qualifySignature"
   ],
   "note": ""
  },
  {
   "property": "C06",
   "status": "proved",
   "theorems": [
    "Gopoet.C06_order_irrelevant",
    "Gopoet.C06_sorted_set",
    "Gopoet.C06_less_is_lexicographic"
   ],
   "note": ""
  },
  {
   "property": "C07",
   "status": "proved",
   "theorems": [
    "Gopoet.C07_imports_bind_prefixes",
    "Gopoet.C07_alias_iff_different"
   ],
   "note": "truthful package names is a hypothesis; an example shows it is needed"
  },
  {
   "property": "C08",
   "status": "proved",
   "theorems": [
    "Gopoet.C08_ensureImported"
   ],
   "note": ""
  },
  {
   "property": "C09",
   "status": "proved",
   "theorems": [
    "Gopoet.C09_ensureImported_idempotent",
    "Gopoet.C09_ensureTypeImported_idempotent",
    "Gopoet.C09_ensureAllTypesImported_idempotent"
   ],
   "note": ""
  },
  {
   "property": "C10",
   "status": "proved",
   "theorems": [
    "Gopoet.C10_only_symbols_change",
    "Gopoet.C10_only_symbols_change_signature"
   ],
   "note": ""
  },
  {
   "property": "C11",
   "status": "proved",
   "theorems": [
    "Gopoet.C11_imports_exactly_mentioned",
    "Gopoet.C11_imports_exactly_mentioned_signature"
   ],
   "note": ""
  },
  {
   "property": "C12",
   "status": "proved",
   "theorems": [
    "Gopoet.C12_qualify_constructible",
    "Gopoet.C12_string_returns",
    "Gopoet.C12_string_qualified_returns"
   ],
   "note": ""
  },
  {
   "property": "C13",
   "status": "proved",
   "theorems": [
    "Gopoet.C13_no_writes",
    "Gopoet.C13_no_writes_signature",
    "Gopoet.C13_no_writes_qualify",
    "Gopoet.C13_no_writes_qualify_signature",
    "Gopoet.C13_values_keep",
    "Gopoet.C13_signatures_keep",
    "Gopoet.C13_identical_iff_equal",
    "Gopoet.C13_identical_iff_equal_signature",
    "Gopoet.C13_identical_iff_settled",
    "Gopoet.C13_identical_iff_settled_signature"
   ],
   "note": "On a model with memory (addresses, slices that may share and overlap, stores; Model/Memory.lean). No writes: for every memory, also with cycles, every value and every outcome. Identity: for values that are trees (possibly sharing memory), the returned value or pointer is the argument exactly if the type is unchanged, i.e. if no symbol needs another package name."
  },
  {
   "property": "C14",
   "status": "proved",
   "theorems": [
    "Gopoet.C14_order_iff",
    "Gopoet.C14_order_independent",
    "Gopoet.C14_no_aliases"
   ],
   "note": ""
  },
  {
   "property": "C15",
   "status": "proved",
   "theorems": [
    "Gopoet.C15_accessors",
    "Gopoet.C15_unsafePointer",
    "Gopoet.C15_nil"
   ],
   "note": ""
  },
  {
   "property": "C16",
   "status": "proved",
   "theorems": [
    "Gopoet.C16_panics_exactly",
    "Gopoet.C16_returns_or_panics"
   ],
   "note": ""
  },
  {
   "property": "C17",
   "status": "partial",
   "theorems": [
    "Gopoet.C17_parses_back_partial",
    "Gopoet.C17_signature_parses_back_partial",
    "Gopoet.C17_shape",
    "Gopoet.C17_parses_back_iff",
    "Gopoet.C17_signature_parses_back_iff",
    "Gopoet.C17_text_determines_type_partial",
    "Gopoet.C17_full_fails",
    "Gopoet.C17_full_fails_channel"
   ],
   "note": "holds exactly for the types without the two forms the code renders wrongly (C17_parses_back_iff): interfaces with both embedded interfaces and methods, and bidirectional channels of receive-only channels; C17_full is stated and refuted"
  },
  {
   "property": "C18",
   "status": "partial",
   "theorems": [
    "Gopoet.C18_qualified_text_means_type_iff",
    "Gopoet.C18_qualified_text_means_type_partial",
    "Gopoet.C18_imports_are_identifiers",
    "Gopoet.C18_full_fails",
    "Gopoet.C18_full_fails_path_base"
   ],
   "note": "C18_full is stated and refuted. With truthful package names and import names that are identifiers it holds exactly for the types without C17's forms whose unqualified names no import or declaration takes (C18_qualified_text_means_type_iff); import names that are no identifiers are in C18_full_fails_path_base."
  },
  {
   "property": "C19",
   "status": "proved",
   "theorems": [
    "Gopoet.C19_tags_survive",
    "Gopoet.C19_no_control",
    "Gopoet.C19_printable"
   ],
   "note": ""
  },
  {
   "property": "C20",
   "status": "proved",
   "theorems": [
    "Gopoet.C20_parameter_lists"
   ],
   "note": ""
  },
  {
   "property": "C21",
   "status": "partial",
   "theorems": [
    "Gopoet.C21_export",
    "Gopoet.C21_export_panics",
    "Gopoet.C21_exported_partial",
    "Gopoet.C21_exported_unchanged",
    "Gopoet.C21_export_idempotent_partial",
    "Gopoet.C21_unchanged_iff",
    "Gopoet.C21_exported_iff_partial",
    "Gopoet.C21_full_fails"
   ],
   "note": "the shape of the result and the panics are proved outright; that the result is exported and that Export is idempotent hold exactly if the first rune is upper-case, has no upper-case form, or its upper-case form is an upper-case letter (C21_exported_iff_partial), which Unicode does not give for all runes; C21_full is stated and refuted from two facts of Unicode"
  },
  {
   "property": "C22",
   "status": "proved",
   "theorems": [
    "Gopoet.C22_unexport",
    "Gopoet.C22_unexport_panics",
    "Gopoet.C22_unexport_idempotent",
    "Gopoet.C22_export_unexport",
    "Gopoet.C22_ascii"
   ],
   "note": "the facts about Unicode's tables used are hypotheses of the theorems"
  },
  {
   "property": "C23",
   "status": "partial",
   "theorems": [
    "Gopoet.C23_faithful_partial",
    "Gopoet.C23_converts_iff",
    "Gopoet.C23_full_fails",
    "Gopoet.C23_universe_types_panic"
   ],
   "note": "holds for all types whose named types belong to a package; types that mention error panic (C23_full_fails, C23_converts_iff)"
  },
  {
   "property": "C24",
   "status": "partial",
   "theorems": [
    "Gopoet.C24_faithful_partial",
    "Gopoet.C24_faithful_iff",
    "Gopoet.C24_basic",
    "Gopoet.C24_named",
    "Gopoet.C24_kind",
    "Gopoet.C24_full_fails_maps",
    "Gopoet.C24_full_fails_results",
    "Gopoet.C24_full_fails_embedded",
    "Gopoet.C24_full_fails_methods",
    "Gopoet.C24_full_fails"
   ],
   "note": "holds for types without maps, functions with results and embedded fields, which the code gets wrong, and for no others (C24_faithful_iff); C24_full is stated and refuted"
  },
  {
   "property": "C25",
   "status": "partial",
   "theorems": [
    "Gopoet.C25_refers_partial",
    "Gopoet.C25_methods_iff",
    "Gopoet.C25_full_fails",
    "Gopoet.C25_refers_iff_partial",
    "Gopoet.C25_interface_literal"
   ],
   "note": "holds for objects that belong to a package (methods: whose receiver type does), and for no others: those panic (C25_refers_iff_partial); C25_full is stated and refuted"
  },
  {
   "property": "C26",
   "status": "proved",
   "theorems": [
    "Gopoet.C26_only_comments",
    "Gopoet.C26_reads_back",
    "Gopoet.C26_empty"
   ],
   "note": ""
  },
  {
   "property": "C27",
   "status": "proved",
   "theorems": [
    "Gopoet.C27_newGoFile"
   ],
   "note": ""
  },
  {
   "property": "C28",
   "status": "proved",
   "theorems": [
    "Gopoet.C28_value",
    "Gopoet.C28_type",
    "Gopoet.C28_func",
    "Gopoet.C28_func_text",
    "Gopoet.C28_panics_before",
    "Gopoet.C28_string"
   ],
   "note": ""
  },
  {
   "property": "C29",
   "status": "proved",
   "theorems": [
    "Gopoet.C29_layout",
    "Gopoet.C29_file_comment_apart"
   ],
   "note": ""
  },
  {
   "property": "C30",
   "status": "partial",
   "theorems": [
    "Gopoet.C30_all_imported_partial",
    "Gopoet.C30_qualifiers_resolve_partial",
    "Gopoet.C30_specs_resolve_partial",
    "Gopoet.C30_full_fails",
    "Gopoet.C30_exactly_partial"
   ],
   "note": "holds for types, signatures, reference arguments, template data and the package-level specs in it, given truthful package names, if the package path \"\" is not imported (as it is on a second writing of template data with copied specs); named *TypeSpecs as types of constants, variables and fields and *InterfaceEmbed arguments are never imported; C30_full is stated and refuted. C30_exactly_partial: all qualifiers are right exactly if the packages of these references are imported for something else under the name they have"
  },
  {
   "property": "C31",
   "status": "partial",
   "theorems": [
    "Gopoet.C31_again_iff_partial",
    "Gopoet.C31_settled_after_two",
    "Gopoet.C31_again_partial",
    "Gopoet.C31_forever_partial",
    "Gopoet.C31_full_fails"
   ],
   "note": "the second writing changes nothing on the heap and gives the same text exactly if no spec in template data was replaced by a copy with another name than that of the package path \"\" (C31_again_iff_partial), because a copy loses its package path; from the second writing on nothing changes for any file (C31_settled_after_two); C31_full is stated and refuted"
  },
  {
   "property": "C32",
   "status": "proved",
   "theorems": [
    "Gopoet.C32_addCode",
    "Gopoet.C32_printlnf",
    "Gopoet.C32_sequence",
    "Gopoet.C32_prints",
    "Gopoet.C32_print_survives_qualification",
    "Gopoet.C32_printf",
    "Gopoet.C32_printf_other",
    "Gopoet.C32_printf_no_text"
   ],
   "note": "fmt is modelled for %s %v %d %q %% and arbitrary for other formats; templates are an arbitrary function"
  },
  {
   "property": "C33",
   "status": "partial",
   "theorems": [
    "Gopoet.C33_reference_text_partial",
    "Gopoet.C33_reference_text_iff",
    "Gopoet.C33_object_left",
    "Gopoet.C33_signature",
    "Gopoet.C33_full_fails",
    "Gopoet.C33_file_partial"
   ],
   "note": "holds except for methods given as *InterfaceMethod, *FuncSpec or types.Object whose package needs no other name in the file: the argument is left as it is and renders as the bare method name or, for a types.Object, as its own String. C33_reference_text_iff is exact; C33_full is stated and refuted. C33_file_partial says what becomes of the arguments of lines of a whole file."
  },
  {
   "property": "C34",
   "status": "partial",
   "theorems": [
    "Gopoet.C34_value_text_partial",
    "Gopoet.C34_field_text_partial",
    "Gopoet.C34_valid_iff_partial",
    "Gopoet.C34_never_registered",
    "Gopoet.C34_full_fails",
    "Gopoet.C34_full_fails_for_fields"
   ],
   "note": "Defect in the code: the type is always written with the package name of the spec's own file, also in its own package, and never registered (C34_never_registered). C34_full is stated and refuted; C34_valid_iff_partial says exactly when the reference is valid."
  },
  {
   "property": "C35",
   "status": "proved",
   "theorems": [
    "Gopoet.C35_session",
    "Gopoet.C35_closed_once",
    "Gopoet.C35_nil_iff_all_written"
   ],
   "note": "The writers, open function and file system are arbitrary answers (World); errors of Close are ignored by the code. A rendering that never ends leaves its writer open."
  },
  {
   "property": "C36",
   "status": "proved",
   "theorems": [
    "Gopoet.C36_writeGoFile",
    "Gopoet.C36_panic_writes_nothing"
   ],
   "note": ""
  },
  {
   "property": "C37",
   "status": "partial",
   "theorems": [
    "Gopoet.C37_empty_gopath_partial",
    "Gopoet.C37_always_fails",
    "Gopoet.C37_fails"
   ],
   "note": "Defect in the code: the test len(paths) != 0 in WriteGoFilesToGoPath is inverted, so every GOPATH yields the 'GOPATH is empty' error and nothing is written (C37_always_fails, C37_fails). Only the empty-GOPATH half holds."
  },
  {
   "property": "C38",
   "status": "proved",
   "theorems": [
    "Gopoet.C38_directory",
    "Gopoet.C38_path_elements",
    "Gopoet.C38_last_element",
    "Gopoet.C38_clean_package_path",
    "Gopoet.C38_below_root",
    "Gopoet.C38_file_system"
   ],
   "note": "path/filepath for Unix, modelled from its documentation."
  },
  {
   "property": "C39",
   "status": "partial",
   "theorems": [
    "Gopoet.C39_newTypeSpec_renders_iff",
    "Gopoet.C39_struct_renders_iff",
    "Gopoet.C39_interface_renders_iff",
    "Gopoet.C39_newTypeSpec",
    "Gopoet.C39_newTypeSpec_total",
    "Gopoet.C39_newTypeSpec_renders_partial",
    "Gopoet.C39_from_unnamed",
    "Gopoet.C39_from_named",
    "Gopoet.C39_alias",
    "Gopoet.C39_alias_text",
    "Gopoet.C39_struct",
    "Gopoet.C39_struct_renders_partial",
    "Gopoet.C39_interface",
    "Gopoet.C39_interface_renders_partial"
   ],
   "note": "the fields, embedded interfaces, methods and parents of new specs are proved outright; that the text declares exactly that type is proved except for the forms rendering gets wrong (C17, C40). C39_newTypeSpec_renders_iff, C39_struct_renders_iff and C39_interface_renders_iff say exactly which specs render right"
  },
  {
   "property": "C40",
   "status": "partial",
   "theorems": [
    "Gopoet.C40_tag_iff",
    "Gopoet.C40_tag_unnamed_iff",
    "Gopoet.C40_full_fails",
    "Gopoet.C40_tag_partial",
    "Gopoet.C40_tag_spec",
    "Gopoet.C40_tag_apart"
   ],
   "note": "the tag is shown for types written on one line and for named specs; for struct and interface types and unnamed specs it is written on a line of its own, which is no Go; C40_full is stated and refuted. C40_tag_iff and C40_tag_unnamed_iff say exactly when the field is read back with its tag"
  },
  {
   "property": "C41",
   "status": "proved",
   "theorems": [
    "Gopoet.C41_types_parse_iff",
    "Gopoet.C41_types",
    "Gopoet.C41_values",
    "Gopoet.C41_value_spec",
    "Gopoet.C41_empty_panics",
    "Gopoet.C41_types_parse"
   ],
   "note": "Grouping, comments and order are proved outright for all declarations. That Go reads a type declaration back is more than the property asks; C41_types_parse_iff says exactly for which type declarations it is so, and C41_types_parse is the one direction of it."
  },
  {
   "property": "C42",
   "status": "partial",
   "theorems": [
    "Gopoet.C42_returns_iff_partial",
    "Gopoet.C42_imports",
    "Gopoet.C42_result_iff_partial",
    "Gopoet.C42_specs_iff_partial",
    "Gopoet.C42_exactly_partial",
    "Gopoet.C42_returns_partial",
    "Gopoet.C42_result_partial",
    "Gopoet.C42_all_imported",
    "Gopoet.C42_same_value",
    "Gopoet.C42_plain_data_partial",
    "Gopoet.C42_full_fails_for_unexported_fields",
    "Gopoet.C42_full_fails_for_arrays",
    "Gopoet.C42_full_fails_for_interface_pointers",
    "Gopoet.C42_full_fails_for_keys",
    "Gopoet.C42_full_fails_for_specs",
    "Gopoet.C42_spec_kept_partial",
    "Gopoet.C42_given"
   ],
   "note": "Defects in the code: unexported struct fields and arrays held by value can panic, keys of maps can become equal, a pointer to an interface becomes a pointer to what the interface holds (and panics inside of other data), and a spec that gets another package name loses its import path; C42_full is stated and refuted for each of them. C42_exactly_partial tells exactly which data, with or without specs, is qualified as it should be (C42_returns_iff_partial: when the call returns; C42_result_iff_partial: when the names in the result are right; C42_specs_iff_partial: when the specs in it are still in their packages), and C42_imports tells the imports afterwards without any assumption. Data is a tree here: what happens to data that is shared or cyclic, and that the given data is not written to, is in C51 to C53."
  },
  {
   "property": "C43",
   "status": "partial",
   "theorems": [
    "Gopoet.C43_import_statements",
    "Gopoet.C43_imports_order",
    "Gopoet.C43_file_partial",
    "Gopoet.C43_full_fails",
    "Gopoet.C43_named_partial",
    "Gopoet.C43_same_imports_partial",
    "Gopoet.C43_same_order_partial",
    "Gopoet.C43_one_referring_partial",
    "Gopoet.C43_statements_iff_partial"
   ],
   "note": "Defect in the code: which of two packages with the same name is renamed depends on the order in which reflection enumerates the entries of a map in template data; C43_full is stated and refuted. The order in the tables of Imports has no influence (C43_imports_order, C43_import_statements). C43_statements_iff_partial is exact: with truthful package names, another order gives the same text iff it gives the same import statements; C43_same_imports_partial is the one direction without that condition, also for files that cannot be written. Conditions on the file before it is written: no two packages that it has to import have the same name, and each has one name (C43_named_partial); all template data mentions packages for the first time in the same order (C43_same_order_partial); in every map at most one entry refers to packages (C43_one_referring_partial). That fmt and text/template do not depend on map order is an assumption on the environment (OrderBlind)."
  },
  {
   "property": "C44",
   "status": "partial",
   "theorems": [
    "Gopoet.C44_same_packages",
    "Gopoet.C44_same_as_original",
    "Gopoet.C44_original_resolves",
    "Gopoet.C44_types_partial",
    "Gopoet.C44_types_iff_partial",
    "Gopoet.C44_alias_breaks",
    "Gopoet.C44_types_full_fails",
    "Gopoet.C44_files_partial",
    "Gopoet.C44_files_iff_partial",
    "Gopoet.C44_files_resolve_partial",
    "Gopoet.C44_full_fails"
   ],
   "note": "Defect in the code: the name that one Imports made up for a package is kept in the symbol (and written back into shared code lines, types and template data) and is taken for the package's real name by another Imports, which then declares the import without alias; C44_full (files) and C44_types_full are stated and refuted, C44_alias_breaks says exactly when. Paths and names are always kept (C44_same_packages), in the second Imports the shared value is written as the original would be (C44_same_as_original), and without aliases in the first file everything resolves in the second (C44_types_partial, C44_files_partial); exactly: the imports of the second resolve unless it imports a package without alias under a name that the first made up (C44_types_iff_partial, C44_files_iff_partial, C44_files_resolve_partial)."
  },
  {
   "property": "C45",
   "status": "partial",
   "theorems": [
    "Gopoet.C45_accepts_full_fails",
    "Gopoet.C45_newReceiverForType_partial",
    "Gopoet.C45_newPointerReceiverForType_partial",
    "Gopoet.C45_no_hang",
    "Gopoet.C45_newReceiver",
    "Gopoet.C45_func_type",
    "Gopoet.C45_method_type",
    "Gopoet.C45_method_without_file",
    "Gopoet.C45_interface_method_type",
    "Gopoet.C45_interface_method_without_type",
    "Gopoet.C45_interface_method_ref",
    "Gopoet.C45_header_partial",
    "Gopoet.C45_header_iff"
   ],
   "note": "a nil type gives a receiver without type instead of a panic; C45_accepts_full is stated and refuted. The header is read back except for signatures that rendering gets wrong (C17); C45_header_iff says exactly when"
  },
  {
   "property": "C46",
   "status": "proved",
   "theorems": [
    "Gopoet.C46_newPackage",
    "Gopoet.C46_newPackage_no_element",
    "Gopoet.C46_newSymbol"
   ],
   "note": "The name need not be an identifier (example: gopkg.in/yaml.v2); the code does not promise that."
  },
  {
   "property": "C47",
   "status": "proved",
   "theorems": [
    "Gopoet.C47_func",
    "Gopoet.C47_method",
    "Gopoet.C47_new",
    "Gopoet.C47_signature"
   ],
   "note": "On the builder model (Model/Builders.lean): constructors return the first unused address; slices given to variadic constructors are values (the code keeps the slice of the caller, who could change it afterwards)."
  },
  {
   "property": "C48",
   "status": "proved",
   "theorems": [
    "Gopoet.C48_elements",
    "Gopoet.C48_specs",
    "Gopoet.C48_new"
   ],
   "note": "On the builder model (Model/Builders.lean): constructors return the first unused address; slices given to variadic constructors are values (the code keeps the slice of the caller, who could change it afterwards)."
  },
  {
   "property": "C49",
   "status": "proved",
   "theorems": [
    "Gopoet.C49_value",
    "Gopoet.C49_decl",
    "Gopoet.C49_type",
    "Gopoet.C49_field",
    "Gopoet.C49_embed",
    "Gopoet.C49_func",
    "Gopoet.C49_file",
    "Gopoet.C49_new",
    "Gopoet.C49_initialize"
   ],
   "note": "On the builder model (Model/Builders.lean): constructors return the first unused address; slices given to variadic constructors are values (the code keeps the slice of the caller, who could change it afterwards)."
  },
  {
   "property": "C50",
   "status": "proved",
   "theorems": [
    "Gopoet.C50_func_text",
    "Gopoet.C50_block_text",
    "Gopoet.C50_new_block",
    "Gopoet.C50_rendered"
   ],
   "note": "C50_func_text covers all six code methods, relative to the heap after the calls, and C50_block_text says the same of code blocks. C50_rendered covers whole files for text, numbers and references in Print, Println, Printf and Printlnf; what qualification does to code blocks and templates is stated by C32, C33 and C42. fmt is modelled for the verbs %s, %v, %d, %q and %%."
  },
  {
   "property": "C51",
   "status": "proved",
   "theorems": [
    "Gopoet.C51_no_writes",
    "Gopoet.C51_data_keeps",
    "Gopoet.C51_types_keep"
   ],
   "note": "On the memory model of Model/DataMemory.lean, where every store is recorded; holds for every fuel, hence also for every prefix of an endless run."
  },
  {
   "property": "C52",
   "status": "proved",
   "theorems": [
    "Gopoet.C52_sharing_irrelevant",
    "Gopoet.C52_same_value",
    "Gopoet.C52_pointers"
   ],
   "note": "Map keys may be pointers and types (Go's rule that the keys of a map differ is part of what data in memory is); restricted, as the property says, to struct and array keys without pointers and types."
  },
  {
   "property": "C53",
   "status": "partial",
   "theorems": [
    "Gopoet.C53_terminates_partial",
    "Gopoet.C53_never_returns_for_cycles",
    "Gopoet.C53_returns_iff",
    "Gopoet.C53_trees_have_no_cycles",
    "Gopoet.C53_full_fails_for_cycles"
   ],
   "note": "C53_full is refuted by cyclic data (C53_full_fails_for_cycles). C53_returns_iff is exact: for data that panics for no other reason, the call returns iff the data leads to no cycle; C53_terminates_partial needs no restriction on map keys and no tree. Tree data has no cycles (C53_trees_have_no_cycles)."
  },
  {
   "property": "C54",
   "status": "partial",
   "theorems": [
    "Gopoet.C54_values_partial",
    "Gopoet.C54_plain_partial",
    "Gopoet.C54_types_keep_partial",
    "Gopoet.C54_function_type_follows",
    "Gopoet.C54_full_fails_for_function_types",
    "Gopoet.C54_full_fails_for_copies",
    "Gopoet.C54_full_fails_for_signatures_of_types",
    "Gopoet.C54_room"
   ],
   "note": "C54_full is refuted in three ways: the type of a function without receiver is a pointer to the function's signature (C54_function_type_follows), copies of a signature share the room that append left, and so do a type and the signature asked from it. Proved for all programs that change no signature after a type got its memory and add to no non-empty list of arguments or results twice; copies and signatures of types may be used otherwise."
  },
  {
   "property": "C55",
   "status": "proved",
   "theorems": [
    "Gopoet.C55_file_parses",
    "Gopoet.C55_rendered_file",
    "Gopoet.C55_written_file"
   ],
   "note": "Under the conditions the property names: Declares (names are identifiers, types are those that rendering gets right, code has balanced brackets and initializers end at the end of their text) and names of imports that are identifiers, which C55_written_file derives from the names of the packages. Bodies and initializers are compared as tokens; operators are single bytes."
  },
  {
   "property": "C56",
   "status": "proved",
   "theorems": [
    "Gopoet.C56_written_file_means_input"
   ],
   "note": "Under the conditions the property names. Function bodies and initializers are not resolved (their references are covered by C30); without the condition on shadowing see C18_full_fails, for named *TypeSpecs see C30_full_fails."
  },
  {
   "property": "C57",
   "status": "partial",
   "theorems": [
    "Gopoet.C57_types_terminate_partial",
    "Gopoet.C57_signatures_terminate_partial",
    "Gopoet.C57_never_return_for_cyclic_types",
    "Gopoet.C57_never_return_for_cyclic_signatures",
    "Gopoet.C57_trees_have_no_cycles",
    "Gopoet.C57_full_fails_for_cycles"
   ],
   "note": "C57_full is refuted by a signature that has its own function type as argument (C57_full_fails_for_cycles); it is shown that calls of the API build it. Proved for every type and signature that leads to no cycle; those that lead to a cycle are never returned (C57_never_return_for_cyclic_types, _signatures)."
  },
  {
   "property": "C58",
   "status": "partial",
   "theorems": [
    "Gopoet.C58_disk_partial",
    "Gopoet.C58_stopped",
    "Gopoet.C58_others",
    "Gopoet.C58_fails",
    "Gopoet.C58_possible"
   ],
   "note": "C58_full is refuted: the error of Close is dropped, so that nil is returned although the contents may be lost (C58_fails). Proved when no Close fails; C58_others holds in any case."
  },
  {
   "property": "C59",
   "status": "partial",
   "theorems": [
    "Gopoet.C59_exported_fields",
    "Gopoet.C59_hidden_fields",
    "Gopoet.C59_like_numbers",
    "Gopoet.C59_result_partial",
    "Gopoet.C59_returns_iff_partial",
    "Gopoet.C59_exactly_partial",
    "Gopoet.C59_full_fails"
   ],
   "note": "C59_full is refuted: a struct that has an unexported field cannot be copied, so that there is a panic if another of its fields changes (C59_full_fails). C59_exported_fields and C59_hidden_fields hold without restriction; C59_result_partial covers every call that returns, up to the cases in which C42 fails. C59_returns_iff_partial and C59_exactly_partial say for which data, whose keys have no unexported fields, it returns and gives the right result."
  },
  {
   "property": "C60",
   "status": "partial",
   "theorems": [
    "Gopoet.C60_values_partial",
    "Gopoet.C60_exactly_partial",
    "Gopoet.C60_own_lists",
    "Gopoet.C60_given_lists",
    "Gopoet.C60_lengths"
   ],
   "note": "C60_full is refuted: two declarations made from the same slice overwrite each other's additions if the slice has room (not_C60_full). C60_exactly_partial tells for which programs the property holds however much room append makes: those in which what is stored into shared memory is the same as before. C60_own_lists and C60_given_lists are simple conditions for that; C60_lengths (lengths and panics) holds for every program."
  },
  {
   "property": "C61",
   "status": "partial",
   "theorems": [
    "Gopoet.C61_file_partial",
    "Gopoet.C61_file_code_partial",
    "Gopoet.C61_exactly_partial",
    "Gopoet.C61_shown_partial",
    "Gopoet.C61_template_partial",
    "Gopoet.C61_code_partial",
    "Gopoet.C61_parts_in_order",
    "Gopoet.C61_loop",
    "Gopoet.C61_loop_map",
    "Gopoet.C61_len",
    "Gopoet.C61_test",
    "Gopoet.C61_call",
    "Gopoet.C61_condition",
    "Gopoet.C61_dot",
    "Gopoet.C61_spec_text",
    "Gopoet.C61_reflect_partial",
    "Gopoet.C61_goType_iff"
   ],
   "note": "C61_full is refuted: a type of go/types whose package keeps its name is left as it is and shown by its own String, with the import path (not_C61_full). C61_exactly_partial tells exactly which values are shown right: all except methods given as specs, and values of go/types and reflect that nothing has to change in and that write themselves in another way. C61_template_partial and C61_code_partial extend this to whole templates and to rendered code. C61_file_partial and C61_file_code_partial say it for every template of a file that is written, also if it is shared. Templates are a fragment of text/template: text, paths of fields, indices and keys, range over slices, arrays and maps, if, with, else, not, and, or, eq, len, template, and variables without assignment."
  },
  {
   "property": "C62",
   "status": "partial",
   "theorems": [
    "Gopoet.C62_imports_iff",
    "Gopoet.C62_used_iff_partial",
    "Gopoet.C62_no_unused_partial",
    "Gopoet.C62_full_fails",
    "Gopoet.C62_method_unused",
    "Gopoet.C62_text_partial"
   ],
   "note": "C62_imports_iff tells exactly what is imported after a file is written; C62_used_iff_partial exactly when all of it is used, C62_no_unused_partial gives conditions that are met by files whose named specs are declared in them, made by the constructors, and with methods given as MethodReference. C62_full is refuted: the body of a named *TypeSpec that is the type of a constant, variable or field is imported for (C62_full_fails), and the package of a method that is given as a spec is imported, but the bare name is written (C62_method_unused). C62_text_partial says it of the text: under the conditions of C56 every import in the text is used by a type that is written in it, or by an argument of a line or by template data. Arguments of lines and template data count as used."
  },
  {
   "property": "C63",
   "status": "proved",
   "theorems": [
    "Gopoet.C63_changes_only",
    "Gopoet.C63_depends_only",
    "Gopoet.C63_undisturbed",
    "Gopoet.C63_in_turn",
    "Gopoet.C63_any_order"
   ],
   "note": ""
  },
  {
   "property": "C64",
   "status": "partial",
   "theorems": [
    "Gopoet.C64_name_iff_partial",
    "Gopoet.C64_names_partial",
    "Gopoet.C64_full_fails"
   ],
   "note": "C64_name_iff_partial tells exactly when a newly registered package gets a usable name; C64_names_partial shows it for all prefixes if all names and, for packages without name, all last path elements are usable. C64_full is refuted: the alias made for gopkg.in/yaml.v2 without name is yaml.v2 (C64_full_fails)."
  },
  {
   "property": "C65",
   "status": "partial",
   "theorems": [
    "Gopoet.C65_gotypes_iff_partial",
    "Gopoet.C65_reflect_iff_partial",
    "Gopoet.C65_same_type_partial",
    "Gopoet.C65_full_fails"
   ],
   "note": "C65_gotypes_iff_partial and C65_reflect_iff_partial tell exactly, in terms of the Go type alone and the imports of the file, when the text means the type: not if it has one of the two forms that are written wrongly (C17), or an import takes a bare name in it. C65_full is refuted with chan (<-chan int) (C65_full_fails)."
  },
  {
   "property": "C66",
   "status": "partial",
   "theorems": [
    "Gopoet.C66_code_iff_partial",
    "Gopoet.C66_template_iff_partial",
    "Gopoet.C66_full_fails",
    "Gopoet.C66_file_iff_partial",
    "Gopoet.C66_text_partial",
    "Gopoet.C66_template_file_iff_partial"
   ],
   "note": "C66_code_iff_partial and C66_template_iff_partial tell exactly when: the reference is what is written (C33, C61), the file's own names are declared and no import takes a bare name; a Package argument for the own package is written as nothing. C66_full is refuted with a package called len (C66_full_fails). C66_code_iff_partial leaves out methods of go/types that keep their package name (their String is fmt's). C66_file_iff_partial says it for every line of a file that is written, also if code is shared or qualified several times; C66_text_partial for the import statements in the text itself, under the conditions of C56. C66_template_file_iff_partial is the same for the templates of a file that is written."
  },
  {
   "property": "C67",
   "status": "partial",
   "theorems": [
    "Gopoet.C67_iff_partial",
    "Gopoet.C67_file_partial",
    "Gopoet.C67_full_fails"
   ],
   "note": "C67_iff_partial is exact: the names in the text keep Go's rules iff those of the elements do and no imported package is called like a declaration of the package or init. C67_file_partial puts C55, C56, C62 and C66 together for files whose package names avoid declared and predeclared names, with conditions on the input only. C67_full is refuted with var time time.Time (C67_full_fails): the Imports do not know the declarations."
  },
  {
   "property": "C68",
   "status": "proved",
   "theorems": [
    "Gopoet.C68_bound_irrelevant",
    "Gopoet.C68_bound_higher",
    "Gopoet.C68_qualified",
    "Gopoet.C68_written",
    "Gopoet.C68_written_executes",
    "Gopoet.C68_written_lines",
    "Gopoet.C68_again",
    "Gopoet.C68_intended",
    "Gopoet.C68_intended_executes",
    "Gopoet.C68_intended_file"
   ],
   "note": ""
  },
  {
   "property": "C69",
   "status": "proved",
   "theorems": [
    "Gopoet.C69_package",
    "Gopoet.C69_possible_each",
    "Gopoet.C69_possible",
    "Gopoet.C69_disk"
   ],
   "note": ""
  },
  {
   "property": "C70",
   "status": "proved",
   "theorems": [
    "Gopoet.C70_first_free",
    "Gopoet.C70_kept_iff",
    "Gopoet.C70_no_aliases",
    "Gopoet.C70_text"
   ],
   "note": ""
  },
  {
   "property": "C71",
   "status": "proved",
   "theorems": [
    "Gopoet.C71_added",
    "Gopoet.C71_addElement"
   ],
   "note": ""
  },
  {
   "property": "C72",
   "status": "partial",
   "theorems": [
    "Gopoet.C72_iff_partial",
    "Gopoet.C72_template_iff_partial",
    "Gopoet.C72_file_partial",
    "Gopoet.C72_full_fails"
   ],
   "note": "C72_iff_partial (lines) and C72_template_iff_partial (templates) are exact: what is written refers in the body to what was given iff it does in the file (C66) and the function declares none of the names that it relies on. C72_file_partial has conditions on the input only, and reads the function from the text. C72_full is refuted with func F(q int) { q.A(q) } (C72_full_fails): the Imports do not know the names of parameters. What the code of a function declares itself is not considered."
  },
  {
   "property": "C73",
   "status": "proved",
   "theorems": [
    "Gopoet.C73_same_text",
    "Gopoet.C73_some",
    "Gopoet.C73_order"
   ],
   "note": ""
  },
  {
   "property": "C74",
   "status": "proved",
   "theorems": [
    "Gopoet.C74_source_text",
    "Gopoet.C74_parts"
   ],
   "note": ""
  },
  {
   "property": "C75",
   "status": "partial",
   "theorems": [
    "Gopoet.C75_no_directives",
    "Gopoet.C75_constraints_partial",
    "Gopoet.C75_unconstrained_iff_partial",
    "Gopoet.C75_unconstrained_partial",
    "Gopoet.C75_full_fails"
   ],
   "note": "C75_no_directives holds for all comments. C75_constraints_partial says exactly which build constraints a file has: none of the new form, and of the old form the lines of its file comment that are one. C75_unconstrained_iff_partial and C75_unconstrained_partial follow. C75_full is refuted with the file comment \"+build ignore\" (C75_full_fails). The function that trims white space is arbitrary with the laws TrimsSpace."
  },
  {
   "property": "C76",
   "status": "proved",
   "theorems": [
    "Gopoet.C76_comment",
    "Gopoet.C76_line",
    "Gopoet.C76_package",
    "Gopoet.C76_imports",
    "Gopoet.C76_elements",
    "Gopoet.C76_values",
    "Gopoet.C76_types",
    "Gopoet.C76_fields",
    "Gopoet.C76_methods",
    "Gopoet.C76_body",
    "Gopoet.C76_struct",
    "Gopoet.C76_interface",
    "Gopoet.C76_type_group"
   ],
   "note": ""
  },
  {
   "property": "C77",
   "status": "proved",
   "theorems": [
    "Gopoet.C77_statement",
    "Gopoet.C77_string_reads",
    "Gopoet.C77_string_different",
    "Gopoet.C77_whole_file"
   ],
   "note": ""
  },
  {
   "property": "C78",
   "status": "proved",
   "theorems": [
    "Gopoet.C78_file",
    "Gopoet.C78_program",
    "Gopoet.C78_package",
    "Gopoet.C78_package_program",
    "Gopoet.C78_apart",
    "Gopoet.C78_disk",
    "Gopoet.C78_comments",
    "Gopoet.C78_documented",
    "Gopoet.C78_type_members",
    "Gopoet.C78_members",
    "Gopoet.C78_written",
    "Gopoet.C78_package_written"
   ],
   "note": ""
  },
  {
   "property": "C79",
   "status": "partial",
   "theorems": [
    "Gopoet.C79_no_nan",
    "Gopoet.C79_not_seen",
    "Gopoet.C79_kept_or_lost",
    "Gopoet.C79_like_numbers",
    "Gopoet.C79_result_partial",
    "Gopoet.C79_full_fails",
    "Gopoet.C79_full_fails_for_entries"
   ],
   "note": "C79_full is refuted: the value at a key with NaN in it is not looked at (C79_full_fails), and the entry is lost if something else in the map changes (C79_full_fails_for_entries). Without restriction: what is at such keys has no influence on imports or result (C79_not_seen), a map is kept as it is or loses all of these entries (C79_kept_or_lost), and without NaN in keys all is as in the other properties (C79_no_nan). C79_like_numbers and C79_result_partial say what happens to the rest of the data; keys that lead, by a pointer, to another map with NaN keys are not covered by these two."
  },
  {
   "property": "C80",
   "status": "proved",
   "theorems": [
    "Gopoet.C80_in_the_end",
    "Gopoet.C80_written",
    "Gopoet.C80_values",
    "Gopoet.C80_receiver",
    "Gopoet.C80_values_needed"
   ],
   "note": ""
  }
 ]
}