{
 "C07": {
  "note": "truthful package names is a hypothesis; an example shows it is needed"
 },
 "C17": {
  "status": "partial",
  "note": "holds exactly for the types without the two forms the code renders wrongly (C17_parses_back_iff): interfaces with both embedded interfaces and methods, and bidirectional channels of receive-only channels; C17_full is stated and refuted"
 },
 "C18": {
  "status": "partial",
  "note": "C18_full is stated and refuted. With truthful package names and import names that are identifiers it holds exactly for the types without C17's forms whose unqualified names no import or declaration takes (C18_qualified_text_means_type_iff); import names that are no identifiers are in C18_full_fails_path_base."
 },
 "C21": {
  "status": "partial",
  "note": "the shape of the result and the panics are proved outright; that the result is exported and that Export is idempotent hold exactly if the first rune is upper-case, has no upper-case form, or its upper-case form is an upper-case letter (C21_exported_iff_partial), which Unicode does not give for all runes; C21_full is stated and refuted from two facts of Unicode"
 },
 "C22": {
  "note": "the facts about Unicode's tables used are hypotheses of the theorems"
 },
 "C23": {
  "status": "partial",
  "note": "holds for all types whose named types belong to a package; types that mention error panic (C23_full_fails, C23_converts_iff)"
 },
 "C24": {
  "status": "partial",
  "note": "holds for types without maps, functions with results and embedded fields, which the code gets wrong, and for no others (C24_faithful_iff); C24_full is stated and refuted"
 },
 "C25": {
  "status": "partial",
  "note": "holds for objects that belong to a package (methods: whose receiver type does), and for no others: those panic (C25_refers_iff_partial); C25_full is stated and refuted"
 },
 "C30": {
  "status": "partial",
  "note": "holds for types, signatures, reference arguments, template data and the package-level specs in it, given truthful package names, if the package path \"\" is not imported (as it is on a second writing of template data with copied specs); named *TypeSpecs as types of constants, variables and fields and *InterfaceEmbed arguments are never imported; C30_full is stated and refuted. C30_exactly_partial: all qualifiers are right exactly if the packages of these references are imported for something else under the name they have"
 },
 "C31": {
  "status": "partial",
  "note": "the second writing changes nothing on the heap and gives the same text exactly if no spec in template data was replaced by a copy with another name than that of the package path \"\" (C31_again_iff_partial), because a copy loses its package path; from the second writing on nothing changes for any file (C31_settled_after_two); C31_full is stated and refuted"
 },
 "C32": {
  "note": "fmt is modelled for %s %v %d %q %% and arbitrary for other formats; templates are an arbitrary function"
 },
 "C33": {
  "status": "partial",
  "note": "holds except for methods given as *InterfaceMethod, *FuncSpec or types.Object whose package needs no other name in the file: the argument is left as it is and renders as the bare method name or, for a types.Object, as its own String. C33_reference_text_iff is exact; C33_full is stated and refuted. C33_file_partial says what becomes of the arguments of lines of a whole file."
 },
 "C35": {
  "status": "proved",
  "note": "The writers, open function and file system are arbitrary answers (World); errors of Close are ignored by the code. A rendering that never ends leaves its writer open."
 },
 "C37": {
  "status": "partial",
  "note": "Defect in the code: the test len(paths) != 0 in WriteGoFilesToGoPath is inverted, so every GOPATH yields the 'GOPATH is empty' error and nothing is written (C37_always_fails, C37_fails). Only the empty-GOPATH half holds."
 },
 "C38": {
  "status": "proved",
  "note": "path/filepath for Unix, modelled from its documentation."
 },
 "C39": {
  "status": "partial",
  "note": "the fields, embedded interfaces, methods and parents of new specs are proved outright; that the text declares exactly that type is proved except for the forms rendering gets wrong (C17, C40). C39_newTypeSpec_renders_iff, C39_struct_renders_iff and C39_interface_renders_iff say exactly which specs render right"
 },
 "C40": {
  "status": "partial",
  "note": "the tag is shown for types written on one line and for named specs; for struct and interface types and unnamed specs it is written on a line of its own, which is no Go; C40_full is stated and refuted. C40_tag_iff and C40_tag_unnamed_iff say exactly when the field is read back with its tag"
 },
 "C41": {
  "status": "proved",
  "note": "Grouping, comments and order are proved outright for all declarations. That Go reads a type declaration back is more than the property asks; C41_types_parse_iff says exactly for which type declarations it is so, and C41_types_parse is the one direction of it."
 },
 "C45": {
  "status": "partial",
  "note": "a nil type gives a receiver without type instead of a panic; C45_accepts_full is stated and refuted. The header is read back except for signatures that rendering gets wrong (C17); C45_header_iff says exactly when"
 },
 "C34": {
  "status": "partial",
  "note": "Defect in the code: the type is always written with the package name of the spec's own file, also in its own package, and never registered (C34_never_registered). C34_full is stated and refuted; C34_valid_iff_partial says exactly when the reference is valid."
 },
 "C42": {
  "status": "partial",
  "note": "Defects in the code: unexported struct fields and arrays held by value can panic, keys of maps can become equal, a pointer to an interface becomes a pointer to what the interface holds (and panics inside of other data), and a spec that gets another package name loses its import path; C42_full is stated and refuted for each of them. C42_exactly_partial tells exactly which data, with or without specs, is qualified as it should be (C42_returns_iff_partial: when the call returns; C42_result_iff_partial: when the names in the result are right; C42_specs_iff_partial: when the specs in it are still in their packages), and C42_imports tells the imports afterwards without any assumption. Data is a tree here: what happens to data that is shared or cyclic, and that the given data is not written to, is in C51 to C53."
 },
 "C43": {
  "status": "partial",
  "note": "Defect in the code: which of two packages with the same name is renamed depends on the order in which reflection enumerates the entries of a map in template data; C43_full is stated and refuted. The order in the tables of Imports has no influence (C43_imports_order, C43_import_statements). C43_statements_iff_partial is exact: with truthful package names, another order gives the same text iff it gives the same import statements; C43_same_imports_partial is the one direction without that condition, also for files that cannot be written. Conditions on the file before it is written: no two packages that it has to import have the same name, and each has one name (C43_named_partial); all template data mentions packages for the first time in the same order (C43_same_order_partial); in every map at most one entry refers to packages (C43_one_referring_partial). That fmt and text/template do not depend on map order is an assumption on the environment (OrderBlind)."
 },
 "C44": {
  "status": "partial",
  "note": "Defect in the code: the name that one Imports made up for a package is kept in the symbol (and written back into shared code lines, types and template data) and is taken for the package's real name by another Imports, which then declares the import without alias; C44_full (files) and C44_types_full are stated and refuted, C44_alias_breaks says exactly when. Paths and names are always kept (C44_same_packages), in the second Imports the shared value is written as the original would be (C44_same_as_original), and without aliases in the first file everything resolves in the second (C44_types_partial, C44_files_partial); exactly: the imports of the second resolve unless it imports a package without alias under a name that the first made up (C44_types_iff_partial, C44_files_iff_partial, C44_files_resolve_partial)."
 },
 "C13": {
  "status": "proved",
  "note": "On a model with memory (addresses, slices that may share and overlap, stores; Model/Memory.lean). No writes: for every memory, also with cycles, every value and every outcome. Identity: for values that are trees (possibly sharing memory), the returned value or pointer is the argument exactly if the type is unchanged, i.e. if no symbol needs another package name."
 },
 "C46": {
  "status": "proved",
  "note": "The name need not be an identifier (example: gopkg.in/yaml.v2); the code does not promise that."
 },
 "C50": {
  "status": "proved",
  "note": "C50_func_text covers all six code methods, relative to the heap after the calls, and C50_block_text says the same of code blocks. C50_rendered covers whole files for text, numbers and references in Print, Println, Printf and Printlnf; what qualification does to code blocks and templates is stated by C32, C33 and C42. fmt is modelled for the verbs %s, %v, %d, %q and %%."
 },
 "C47": {
  "status": "proved",
  "note": "On the builder model (Model/Builders.lean): constructors return the first unused address; slices given to variadic constructors are values (the code keeps the slice of the caller, who could change it afterwards)."
 },
 "C48": {
  "status": "proved",
  "note": "On the builder model (Model/Builders.lean): constructors return the first unused address; slices given to variadic constructors are values (the code keeps the slice of the caller, who could change it afterwards)."
 },
 "C49": {
  "status": "proved",
  "note": "On the builder model (Model/Builders.lean): constructors return the first unused address; slices given to variadic constructors are values (the code keeps the slice of the caller, who could change it afterwards)."
 },
 "C51": {
  "status": "proved",
  "note": "On the memory model of Model/DataMemory.lean, where every store is recorded; holds for every fuel, hence also for every prefix of an endless run."
 },
 "C52": {
  "status": "proved",
  "note": "Map keys may be pointers and types (Go's rule that the keys of a map differ is part of what data in memory is); restricted, as the property says, to struct and array keys without pointers and types."
 },
 "C53": {
  "status": "partial",
  "note": "C53_full is refuted by cyclic data (C53_full_fails_for_cycles). C53_returns_iff is exact: for data that panics for no other reason, the call returns iff the data leads to no cycle; C53_terminates_partial needs no restriction on map keys and no tree. Tree data has no cycles (C53_trees_have_no_cycles)."
 },
 "C54": {
  "status": "partial",
  "note": "C54_full is refuted in three ways: the type of a function without receiver is a pointer to the function's signature (C54_function_type_follows), copies of a signature share the room that append left, and so do a type and the signature asked from it. Proved for all programs that change no signature after a type got its memory and add to no non-empty list of arguments or results twice; copies and signatures of types may be used otherwise."
 },
 "C55": {
  "status": "proved",
  "note": "Under the conditions the property names: Declares (names are identifiers, types are those that rendering gets right, code has balanced brackets and initializers end at the end of their text) and names of imports that are identifiers, which C55_written_file derives from the names of the packages. Bodies and initializers are compared as tokens; operators are single bytes."
 },
 "C56": {
  "status": "proved",
  "note": "Under the conditions the property names. Function bodies and initializers are not resolved (their references are covered by C30); without the condition on shadowing see C18_full_fails, for named *TypeSpecs see C30_full_fails."
 },
 "C57": {
  "status": "partial",
  "note": "C57_full is refuted by a signature that has its own function type as argument (C57_full_fails_for_cycles); it is shown that calls of the API build it. Proved for every type and signature that leads to no cycle; those that lead to a cycle are never returned (C57_never_return_for_cyclic_types, _signatures)."
 },
 "C58": {
  "status": "partial",
  "note": "C58_full is refuted: the error of Close is dropped, so that nil is returned although the contents may be lost (C58_fails). Proved when no Close fails; C58_others holds in any case."
 },
 "C59": {
  "status": "partial",
  "note": "C59_full is refuted: a struct that has an unexported field cannot be copied, so that there is a panic if another of its fields changes (C59_full_fails). C59_exported_fields and C59_hidden_fields hold without restriction; C59_result_partial covers every call that returns, up to the cases in which C42 fails. C59_returns_iff_partial and C59_exactly_partial say for which data, whose keys have no unexported fields, it returns and gives the right result."
 },
 "C60": {
  "status": "partial",
  "note": "C60_full is refuted: two declarations made from the same slice overwrite each other's additions if the slice has room (not_C60_full). C60_exactly_partial tells for which programs the property holds however much room append makes: those in which what is stored into shared memory is the same as before. C60_own_lists and C60_given_lists are simple conditions for that; C60_lengths (lengths and panics) holds for every program."
 },
 "C61": {
  "status": "partial",
  "note": "C61_full is refuted: a type of go/types whose package keeps its name is left as it is and shown by its own String, with the import path (not_C61_full). C61_exactly_partial tells exactly which values are shown right: all except methods given as specs, and values of go/types and reflect that nothing has to change in and that write themselves in another way. C61_template_partial and C61_code_partial extend this to whole templates and to rendered code. C61_file_partial and C61_file_code_partial say it for every template of a file that is written, also if it is shared. Templates are a fragment of text/template: text, paths of fields, indices and keys, range over slices, arrays and maps, if, with, else, not, and, or, eq, len, template, and variables without assignment."
 },
 "C62": {
  "status": "partial",
  "note": "C62_imports_iff tells exactly what is imported after a file is written; C62_used_iff_partial exactly when all of it is used, C62_no_unused_partial gives conditions that are met by files whose named specs are declared in them, made by the constructors, and with methods given as MethodReference. C62_full is refuted: the body of a named *TypeSpec that is the type of a constant, variable or field is imported for (C62_full_fails), and the package of a method that is given as a spec is imported, but the bare name is written (C62_method_unused). C62_text_partial says it of the text: under the conditions of C56 every import in the text is used by a type that is written in it, or by an argument of a line or by template data. Arguments of lines and template data count as used."
 },
 "C64": {
  "status": "partial",
  "note": "C64_name_iff_partial tells exactly when a newly registered package gets a usable name; C64_names_partial shows it for all prefixes if all names and, for packages without name, all last path elements are usable. C64_full is refuted: the alias made for gopkg.in/yaml.v2 without name is yaml.v2 (C64_full_fails)."
 },
 "C65": {
  "status": "partial",
  "note": "C65_gotypes_iff_partial and C65_reflect_iff_partial tell exactly, in terms of the Go type alone and the imports of the file, when the text means the type: not if it has one of the two forms that are written wrongly (C17), or an import takes a bare name in it. C65_full is refuted with chan (<-chan int) (C65_full_fails)."
 },
 "C66": {
  "status": "partial",
  "note": "C66_code_iff_partial and C66_template_iff_partial tell exactly when: the reference is what is written (C33, C61), the file's own names are declared and no import takes a bare name; a Package argument for the own package is written as nothing. C66_full is refuted with a package called len (C66_full_fails). C66_code_iff_partial leaves out methods of go/types that keep their package name (their String is fmt's). C66_file_iff_partial says it for every line of a file that is written, also if code is shared or qualified several times; C66_text_partial for the import statements in the text itself, under the conditions of C56. C66_template_file_iff_partial is the same for the templates of a file that is written."
 },
 "C67": {
  "status": "partial",
  "note": "C67_iff_partial is exact: the names in the text keep Go's rules iff those of the elements do and no imported package is called like a declaration of the package or init. C67_file_partial puts C55, C56, C62 and C66 together for files whose package names avoid declared and predeclared names, with conditions on the input only. C67_full is refuted with var time time.Time (C67_full_fails): the Imports do not know the declarations."
 },
 "C72": {
  "status": "partial",
  "note": "C72_iff_partial (lines) and C72_template_iff_partial (templates) are exact: what is written refers in the body to what was given iff it does in the file (C66) and the function declares none of the names that it relies on. C72_file_partial has conditions on the input only, and reads the function from the text. C72_full is refuted with func F(q int) { q.A(q) } (C72_full_fails): the Imports do not know the names of parameters. What the code of a function declares itself is not considered."
 },
 "C75": {
  "status": "partial",
  "note": "C75_no_directives holds for all comments. C75_constraints_partial says exactly which build constraints a file has: none of the new form, and of the old form the lines of its file comment that are one. C75_unconstrained_iff_partial and C75_unconstrained_partial follow. C75_full is refuted with the file comment \"+build ignore\" (C75_full_fails). The function that trims white space is arbitrary with the laws TrimsSpace."
 },
 "C79": {
  "status": "partial",
  "note": "C79_full is refuted: the value at a key with NaN in it is not looked at (C79_full_fails), and the entry is lost if something else in the map changes (C79_full_fails_for_entries). Without restriction: what is at such keys has no influence on imports or result (C79_not_seen), a map is kept as it is or loses all of these entries (C79_kept_or_lost), and without NaN in keys all is as in the other properties (C79_no_nan). C79_like_numbers and C79_result_partial say what happens to the rest of the data; keys that lead, by a pointer, to another map with NaN keys are not covered by these two."
 }
}