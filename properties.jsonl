{"id": "C01", "title": "Import prefixes are unique", "statement": "Two different import paths registered with one Imports never get the same package prefix, and a non-empty prefix always is a non-empty package name followed by a dot.", "quantifier": "every Imports, after every finite history of RegisterImport, RegisterImportForPackage, EnsureImported, EnsureTypeImported and EnsureAllTypesImported calls with arbitrary paths, names and types", "why_tests_cant": "the clash needs a particular order of registrations (e.g. a real package called foo1 arriving after foo was aliased to foo1); tests sample a few orders only", "anchors": ["imports.go: Imports.RegisterImport, Imports.prefixForPackage"]}
{"id": "C02", "title": "Import prefixes are stable", "statement": "Once a path has a prefix, every later call for that path (RegisterImport with any package name, PrefixForPackage, Qualify) returns that same prefix, whatever was registered in between.", "quantifier": "every Imports, path, and every history of later calls", "why_tests_cant": "unbounded histories between the first and the later call", "anchors": ["imports.go: Imports.RegisterImport, Imports.PrefixForPackage"]}
{"id": "C03", "title": "Importing the own package is a no-op", "statement": "Registering or qualifying the package the Imports was created for returns the empty prefix (a symbol with empty package name), changes nothing, and that path never appears in ImportSpecs, whatever history follows.", "quantifier": "every own path, package name, symbol and history", "why_tests_cant": "universally quantified over histories and names", "anchors": ["imports.go: NewImportsFor, Imports.prefixForPackage, Imports.qualify"]}
{"id": "C04", "title": "Alias choice terminates and takes the first free candidate", "statement": "RegisterImport of a new path always returns, after at most (number of registered packages + 1) probes, and the chosen name is the first of base, base1, base2, ... not in use, where base is the given package name or, if that is empty, the last element of the path.", "quantifier": "every Imports state reachable by any history, every path and package name", "why_tests_cant": "the code has an unbounded 'for' loop; termination for every state is not testable", "anchors": ["imports.go: Imports.prefixForPackage"]}
{"id": "C05", "title": "Lookups never register and fail exactly on unknown packages", "statement": "PrefixForPackage, Qualify, QualifyType and QualifySignature never change the Imports; they panic exactly when the argument references a package that is neither the own package nor registered, and otherwise agree with what the Ensure* call would return.", "quantifier": "every Imports state, path, symbol, type and signature", "why_tests_cant": "the panic condition ranges over all symbols anywhere inside arbitrarily nested types", "anchors": ["imports.go: Imports.PrefixForPackage, Imports.Qualify, Imports.QualifyType, Imports.QualifySignature"]}
{"id": "C06", "title": "ImportSpecs is the sorted, duplicate-free set of imports, independent of map order", "statement": "ImportSpecs returns exactly one spec per registered path, strictly sorted by path; the result is the same for every iteration order of the underlying maps and for every correct sorting algorithm.", "quantifier": "every Imports state reachable by any history, every map iteration order, every sort implementation that returns a sorted permutation", "why_tests_cant": "Go randomises map iteration; a test sees one order per run", "anchors": ["imports.go: Imports.ImportSpecs"]}
{"id": "C07", "title": "Import statements bind every prefix to its path", "statement": "If the package names given at registration are the true names (or empty when unknown), then resolving any returned prefix by Go's scoping rule against the import statements produced by ImportSpecs gives exactly the registered path; an alias is printed exactly when the prefix differs from the name given.", "quantifier": "every assignment of true package names to paths, every history of truthful registrations", "why_tests_cant": "relates two outputs (prefixes and import statements) over all histories", "anchors": ["imports.go: Imports.RegisterImport, Imports.ImportSpecs, ImportSpec.String"]}
{"id": "C08", "title": "EnsureImported rewrites only the package name", "statement": "EnsureImported returns a symbol with the same name and import path whose package name is the registered prefix without its dot (empty for the own package); symbols without a package (builtins) are returned unchanged and register nothing.", "quantifier": "every Imports state and symbol", "why_tests_cant": "all states and symbols", "anchors": ["imports.go: Imports.EnsureImported, Imports.qualify"]}
{"id": "C09", "title": "Qualification is idempotent", "statement": "Applying EnsureImported / EnsureTypeImported / EnsureAllTypesImported to their own result, also after any further registrations, returns it unchanged and changes no import.", "quantifier": "every Imports state, symbol, type, signature, and history in between", "why_tests_cant": "nested types of unbounded depth and unbounded histories", "anchors": ["imports.go: Imports.EnsureTypeImported, Imports.EnsureAllTypesImported"]}
{"id": "C10", "title": "EnsureTypeImported changes only package names", "statement": "The type returned by EnsureTypeImported is the given type with every symbol replaced by its EnsureImported form with respect to the resulting Imports, and with nothing else (kinds, lengths, directions, field names, tags, argument names, variadic flag, order) changed; likewise for signatures.", "quantifier": "every Imports state and every type, of any nesting", "why_tests_cant": "induction over type structure", "anchors": ["imports.go: Imports.qualifyType, qualifySignature, qualifyArgs, qualifyFields, qualifyMethods, qualifySymbols"]}
{"id": "C11", "title": "EnsureTypeImported imports exactly the packages a type mentions", "statement": "After EnsureTypeImported(t) the imported paths are the previously imported ones plus exactly the paths of packages mentioned by symbols of t (other than the own package and builtins).", "quantifier": "every Imports state and every type", "why_tests_cant": "set equality over all types; a missed or spurious import makes generated code fail to compile only for that type", "anchors": ["imports.go: Imports.qualifyType"]}
{"id": "C12", "title": "Qualifying a constructible type never panics and keeps it constructible", "statement": "For every type built through the exported constructors (so with no nil component and with a slice as last argument of every variadic function) EnsureTypeImported and String do not panic and the returned type again satisfies those conditions.", "quantifier": "every valid type and Imports state", "why_tests_cant": "all types; FuncTypeFromSig re-validates inside qualification and could panic", "anchors": ["imports.go: Imports.qualifyType; types.go: FuncTypeFromSig, typeNameToBuffer"]}
{"id": "C13", "title": "Qualification never mutates its argument and shares unchanged values", "statement": "EnsureTypeImported and EnsureAllTypesImported write no memory reachable from their argument (slices, signatures, symbols held by the caller keep their contents), and when no symbol needs a new package name they return the identical value (same pointer).", "quantifier": "every heap, every type value in it (with arbitrary sharing between slices), every Imports state", "why_tests_cant": "absence of writes through aliases cannot be observed by sampling", "anchors": ["imports.go: qualifyArgs, qualifyFields, qualifyMethods, qualifySymbols, sameSlice"]}
{"id": "C14", "title": "Conflict-free imports are order independent", "statement": "If the packages registered have pairwise different names, no alias is used and the set of prefixes and ImportSpecs do not depend on the order of registration.", "quantifier": "every set of packages with distinct paths and names, every permutation of registrations", "why_tests_cant": "n! orders", "anchors": ["imports.go: Imports.RegisterImport, Imports.ImportSpecs"]}
{"id": "C15", "title": "TypeName accessors match the constructor", "statement": "Each constructor yields a value whose Kind is the constructor's and whose accessors return exactly the constructor's arguments, while every accessor not applicable to the kind returns its documented zero (nil, -1, 0, Invalid, zero symbol).", "quantifier": "every argument of every constructor, every accessor", "why_tests_cant": "arguments range over all types", "anchors": ["types.go: TypeName, BasicType, PointerType, SliceType, ArrayType, MapType, NamedType, ChannelType, FuncType, StructType, InterfaceType"]}
{"id": "C16", "title": "Constructors panic exactly on the documented invalid input", "statement": "PointerType, SliceType, ArrayType, MapType, ChannelType, FuncType*, BasicType panic exactly when a component is nil, a length negative, a direction has a bit outside BothDir, a variadic signature does not end in a slice, or the kind is not basic.", "quantifier": "every argument (including every 64-bit length, direction and kind value)", "why_tests_cant": "all inputs", "anchors": ["types.go: BasicType, PointerType, SliceType, ArrayType, MapType, ChannelType, FuncTypeFromSig"]}
{"id": "C17", "title": "Rendered types parse back to the same type", "statement": "The text produced by TypeName.String, read by the grammar of the Go specification, denotes the type it was produced from.", "quantifier": "every valid type whose names are Go identifiers", "why_tests_cant": "the grammar is recursive and precedence bugs (channel arrows, separators) appear only in particular nestings", "anchors": ["types.go: typeNameToString, typeNameToBuffer, signatureToBuffer"]}
{"id": "C18", "title": "A rendered, qualified type means the original type", "statement": "For truthful package names, the text of EnsureTypeImported(t).String(), parsed by the Go grammar and with each qualifier resolved through the file's import statements, denotes t with every symbol identified by its import path and name.", "quantifier": "every valid type, every Imports history", "why_tests_cant": "combines qualification, rendering, import statements over all types and histories", "anchors": ["imports.go: Imports.EnsureTypeImported, Imports.ImportSpecs; types.go: typeNameToBuffer"]}
{"id": "C19", "title": "Struct tags survive rendering", "statement": "A struct tag rendered as part of a struct type is a Go string literal (raw or interpreted) whose value is exactly the tag, and which has no control characters but tabs; interpreted literals consist of printable characters.", "quantifier": "every tag, including quotes, backquotes, control characters and invalid UTF-8", "why_tests_cant": "all byte strings", "anchors": ["types.go: typeNameToBuffer (KindStruct); model.go: FieldSpec.writeTo"]}
{"id": "C20", "title": "Parameter lists are all named or all unnamed", "statement": "In a rendered signature either every parameter is preceded by a name ('_' for those without) or none is, the same holds separately for results, results are parenthesised exactly when there are several or named ones, and '...' precedes exactly the last parameter of a variadic signature.", "quantifier": "every signature", "why_tests_cant": "all mixes of named and unnamed parameters of any length", "anchors": ["types.go: signatureToBuffer"]}
{"id": "C21", "title": "Export returns an exported form", "statement": "For every non-empty name starting with a valid rune, Export returns a string starting with an upper-case letter that keeps the rest of the name; names already upper-case are unchanged, a leading underscore becomes X and other caseless starts get the prefix X; Export is idempotent; it panics exactly on names that do not start with a valid rune (or start with U+FFFD).", "quantifier": "every byte string, every Unicode case table satisfying the stated laws", "why_tests_cant": "all byte strings, incl. invalid UTF-8", "anchors": ["names.go: Export"]}
{"id": "C22", "title": "Unexport lower-cases exactly the first rune", "statement": "Unexport replaces exactly the first rune by its lower-case form and keeps every other byte, is idempotent, and panics exactly on names that do not start with a valid rune (or start with U+FFFD); Export(Unexport(s)) = s for names starting with an ASCII upper-case letter.", "quantifier": "every byte string, every Unicode case table satisfying the stated laws", "why_tests_cant": "all byte strings, incl. invalid UTF-8", "anchors": ["names.go: Unexport"]}
{"id": "C23", "title": "TypeNameForGoType is faithful", "statement": "For a go/types type, TypeNameForGoType returns the TypeName that denotes the same Go type (same kinds, element types, lengths, directions, field names with embedded fields anonymous, tags, embeds, methods in order, variadic flag) and panics only for types a TypeName cannot represent (untyped/invalid basic kinds, tuples).", "quantifier": "every go/types type", "why_tests_cant": "recursive over all types", "anchors": ["types.go: TypeNameForGoType, signatureFromGoType, argsTypesForGoType; model.go: PackageForGoType"]}
{"id": "C24", "title": "TypeNameForReflectType is faithful", "statement": "For a reflect.Type, TypeNameForReflectType returns the TypeName that denotes the same Go type and does not panic for any type that Go code can mention.", "quantifier": "every reflect.Type", "why_tests_cant": "recursive over all types; the repository has no test for it at all", "anchors": ["types.go: TypeNameForReflectType, signatureFromReflectType"]}
{"id": "C25", "title": "SymbolForGoObject distinguishes methods from other objects", "statement": "SymbolForGoObject returns a method reference to the receiver's named type (through one pointer) exactly for methods, and otherwise the symbol with the object's package and name.", "quantifier": "every go/types object", "why_tests_cant": "all objects and receiver types", "anchors": ["model.go: SymbolForGoObject"]}
{"id": "C26", "title": "Comments cannot leak into code", "statement": "However a comment text looks, each line of its rendering starts with '//' and ends with a newline, removing the markers gives the text back, and an empty comment renders to nothing.", "quantifier": "every comment string", "why_tests_cant": "all strings, including embedded newlines and comment terminators", "anchors": ["model.go: writeComment"]}
{"id": "C27", "title": "NewGoFile accepts exactly base names ending in .go", "statement": "NewGoFile panics unless the file name contains no path separator and ends in '.go'; otherwise the file's Package() is the given path and name and it has no elements and no imports.", "quantifier": "every file name, package path and name", "why_tests_cant": "all strings", "anchors": ["model.go: NewGoFile, GoFile.Package"]}
{"id": "C28", "title": "Adding an element to a file gives its specs that file's package", "statement": "After AddElement/AddConst/AddVar/AddType, ToSymbol/SymbolAt of each spec inside returns a symbol with the spec's name and the file's package, until it is added to another file; before being added to any file they panic; String never panics for added or not-added specs with at least one name.", "quantifier": "every sequence of add operations on any number of files and specs", "why_tests_cant": "histories of add operations with sharing of specs between files", "anchors": ["model.go: GoFile.AddElement, setParent, ConstSpec.SymbolAt, VarSpec.SymbolAt, TypeSpec.ToSymbol, FuncSpec.ToSymbol"]}
{"id": "C29", "title": "File layout", "statement": "WriteGoFile hands to the formatter, in this order: file comment and a blank line (if any), package comment, package clause (with canonical import path if set), the import statements of ImportSpecs, and each element in insertion order separated by blank lines; a file comment is never adjacent to the package clause.", "quantifier": "every file", "why_tests_cant": "all files", "anchors": ["model.go: WriteGoFile, GoFile.writeTo"]}
{"id": "C30", "title": "Every package referenced by a rendered file is imported", "statement": "After WriteGoFile, every qualifier rendered for a type or for a reference argument of a code block is bound by one of the file's import statements to the referenced package's path.", "quantifier": "every file and every mix of elements, code blocks and reference arguments", "why_tests_cant": "all files; a missing import appears only for particular argument kinds", "anchors": ["model.go: WriteGoFile, ConstDecl.qualify, VarDecl.qualify, TypeSpec.qualify, FuncSpec.qualify; code.go: line.qualify"]}
{"id": "C31", "title": "Writing a file twice gives the same output", "statement": "Calling WriteGoFile again on the same file, without changing it in between, produces the same unformatted source and the same imports.", "quantifier": "every file", "why_tests_cant": "qualification mutates the model in place; only a universally quantified argument shows that the second pass is a no-op", "anchors": ["model.go: WriteGoFile; code.go: line.qualify, templ.qualify; templates.go: qualifyTemplateData"]}
{"id": "C32", "title": "Print emits text verbatim, AddCode concatenates", "statement": "Print(text) renders exactly text and Println(text) text plus a newline, whatever characters (also '%') it contains; a block to which others were added renders as the concatenation of the parts in order. A Printf format made of text, %%, and the verbs %s %v %d %q renders as its pieces in order, each verb with the next argument.", "quantifier": "every text, every sequence of Print/Println/Printf/AddCode calls", "why_tests_cant": "all strings and all call sequences", "anchors": ["code.go: CodeBlock.Print, Println, Printf, Printlnf, AddCode, writeTo"]}
{"id": "C33", "title": "Reference arguments of Printf render as the right reference", "statement": "A Package, Symbol, MethodReference, TypeName, *ConstSpec, *VarSpec, *TypeSpec, *FuncSpec, *InterfaceMethod or go/types / reflect argument of a code block renders, after qualification, as the reference to the same element with the qualifier assigned by the file's imports.", "quantifier": "every argument of every supported kind, every Imports state", "why_tests_cant": "all argument kinds times all import states (own package, unaliased, aliased)", "anchors": ["code.go: line.qualify"]}
{"id": "C34", "title": "A *TypeSpec used as the type of a const, var or field renders as a valid reference", "statement": "When the type of a ConstSpec, VarSpec or FieldSpec is a named *TypeSpec, the rendered type is unqualified in the TypeSpec's own package and otherwise qualified by a name that the file imports.", "quantifier": "every const/var/field and TypeSpec, in the same or in different packages", "why_tests_cant": "needs all combinations of packages", "anchors": ["model.go: qualifyType, ConstSpec.writeTo, VarSpec.writeTo, FieldSpec.writeTo, TypeSpec.String"]}
{"id": "C35", "title": "WriteGoFiles stops at the first error and closes what it opens", "statement": "WriteGoFiles processes files in order; each writer opened is closed exactly once before the next is opened, also when rendering panics; it stops at the first failing file, returning that error, opens nothing after it, and returns nil exactly when every open and write succeeded.", "quantifier": "every list of files and every pattern of failures of the open function, rendering, formatting and writing", "why_tests_cant": "all failure patterns", "anchors": ["model.go: WriteGoFiles, WriteGoFile"]}
{"id": "C36", "title": "A failed render writes nothing", "statement": "If the code cannot be formatted WriteGoFile returns a *FormatError carrying the unformatted code and makes no Write call; otherwise it makes exactly one Write call, with the formatted code.", "quantifier": "every file, formatter and writer", "why_tests_cant": "all formatter behaviours", "anchors": ["model.go: WriteGoFile, FormatError"]}
{"id": "C37", "title": "WriteGoFilesToGoPath writes below the first GOPATH entry", "statement": "With a non-empty GOPATH, WriteGoFilesToGoPath writes the files below its first entry and returns nil when all writes succeed; with an empty GOPATH it returns an error.", "quantifier": "every GOPATH value and file list", "why_tests_cant": "all environment values; the repository never tests it", "anchors": ["model.go: WriteGoFilesToGoPath"]}
{"id": "C38", "title": "Output paths are package path plus file name", "statement": "The path given to the open function is the cleaned package path joined with the file's name: its last element is the file name, and if the package path is relative and has no '..' element the path stays below the root.", "quantifier": "every package path and valid file name", "why_tests_cant": "all strings", "anchors": ["model.go: WriteGoFiles, WriteGoFilesToFileSystem"]}
{"id": "C39", "title": "TypeSpec bodies agree with their underlying type", "statement": "NewTypeSpec, NewTypeAlias, NewStructTypeSpec and NewInterfaceTypeSpec produce a spec whose rendered body lists exactly the fields / embeds / methods of Underlying(), in order; an alias differs only by '='.", "quantifier": "every type and list of fields or interface elements", "why_tests_cant": "all types", "anchors": ["model.go: NewTypeSpec, NewTypeAlias, NewStructTypeSpec, NewInterfaceTypeSpec, TypeSpec.writeUnderlying"]}
{"id": "C40", "title": "A field's tag stays on the field's line", "statement": "In a rendered struct definition each field without comment is rendered so that its tag directly follows its type (no newline in between), whatever the field's type.", "quantifier": "every field spec", "why_tests_cant": "all field types", "anchors": ["model.go: FieldSpec.writeTo, TypeSpec.writeUnderlying"]}
{"id": "C41", "title": "Declarations are grouped exactly when needed", "statement": "A const/var/type declaration renders as a parenthesised group exactly when it has several specs or its own comment; otherwise as a single declaration with the spec's comment above the keyword; each spec appears exactly once in order; an empty declaration without comment panics.", "quantifier": "every declaration", "why_tests_cant": "all lists of specs", "anchors": ["model.go: ConstDecl.writeTo, VarDecl.writeTo, TypeDecl.writeTo"]}
{"id": "C42", "title": "QualifyTemplateData preserves shape and qualifies every reference", "statement": "QualifyTemplateData returns data of the same shape in which every gopoet reference (at any depth in structs, pointers, slices, arrays, maps, interfaces) is replaced by its qualified form, leaves the given data untouched, and returns the data itself when nothing needs to change.", "quantifier": "every template data value and Imports state", "why_tests_cant": "recursive over arbitrary data", "anchors": ["imports.go: Imports.QualifyTemplateData; templates.go: qualifyTemplateData"]}
{"id": "C43", "title": "Output is deterministic", "statement": "Rendering the same file model always yields the same source: no map iteration order influences prefixes, aliases or import statements.", "quantifier": "every file, every map iteration order at every step", "why_tests_cant": "map order is randomised by the runtime", "anchors": ["imports.go: Imports.ImportSpecs; templates.go: qualifyTemplateData (reflect.Map)"]}
{"id": "C44", "title": "Values can be shared between files", "statement": "A type, symbol or code block that was rendered in one file can be reused in a second file with another Imports and again resolves to the same package there.", "quantifier": "every value and every pair of Imports histories", "why_tests_cant": "histories of two files", "anchors": ["imports.go: Imports.qualify; code.go: line.qualify"]}
{"id": "C45", "title": "Receivers", "statement": "NewReceiverForType / NewPointerReceiverForType accept exactly named types (and, for the former, pointers to them) and give a receiver with that type's unqualified name; FuncSpec.ToTypeName of a method is the function type with the receiver prepended, and InterfaceMethod.ToTypeName the one with the interface type prepended; the rendered method header shows the receiver.", "quantifier": "every type and method", "why_tests_cant": "all types", "anchors": ["model.go: NewReceiverForType, NewPointerReceiverForType, FuncSpec.ToTypeName, FuncSpec.writeTo, InterfaceMethod.ToTypeName, InterfaceMethod.ToMethodRef"]}
{"id": "C46", "title": "NewPackage derives the name from the path", "statement": "NewPackage keeps the given import path and uses its last element (ignoring trailing slashes) as name; the name of a path without elements is '.' or '/'. NewSymbol(path, name).String() is last element, dot, name.", "quantifier": "every import path and symbol name", "why_tests_cant": "all strings, any number of trailing slashes", "anchors": ["model.go: NewPackage, NewSymbol, Symbol.String"]}
{"id": "C47", "title": "Signatures are what was added, in order", "statement": "After any sequence of constructor and chained method calls, the arguments and results of a function, method or interface method are exactly those given by AddArg/AddResult on it, in call order, and it is variadic iff the last SetVariadic said so; calls on other objects have no influence.", "quantifier": "every sequence of calls, interleaved over any objects", "why_tests_cant": "histories of calls over an unbounded set of objects", "anchors": ["types.go: Signature.AddArg, AddResult, SetVariadic; model.go: FuncSpec.AddArg, AddResult, SetVariadic, InterfaceMethod.AddArg, AddResult, SetVariadic"]}
{"id": "C48", "title": "Files and declarations hold what was added, in order", "statement": "After any sequence of calls, a file has exactly the elements it had before followed by those of AddElement/AddConst/AddVar/AddType on it, in order, as NumElements and ElementAt show (ElementAt panics beyond); a declaration has exactly its specs followed by those added, and constants stay constants.", "quantifier": "every sequence of calls, interleaved over any objects", "why_tests_cant": "histories of calls over an unbounded set of objects", "anchors": ["model.go: GoFile.AddElement, AddConst, AddVar, AddType, NumElements, ElementAt; model.go: ConstDecl.AddConst, VarDecl.AddVar, TypeDecl.AddType"]}
{"id": "C49", "title": "The last setter call wins and nothing else changes", "statement": "After any sequence of calls, the comment, type, initializer, tag and file comments of an object are those of the last setter call on it (or those it had), and names, receivers, bodies and packages are those given to the constructor; Initialize gives the spec a code block of its own.", "quantifier": "every sequence of calls, interleaved over any objects", "why_tests_cant": "histories of calls over an unbounded set of objects", "anchors": ["model.go: SetComment, SetType, SetInitializer, Initialize, SetTag; model.go: GoFile fields"]}
{"id": "C50", "title": "A built function is written as it was built", "statement": "A function made by NewFunc/NewMethod renders, after any further calls, as the last comment, func, receiver, name, the added arguments and results, and in braces the code of Print/Println/Printf/Printlnf/AddCode/RenderCode calls in order; in a rendered file its references carry exactly the qualifiers of that file's imports and the rest of the code is as given. A code block is rendered as the calls on it in order.", "quantifier": "every sequence of calls before and after, every file", "why_tests_cant": "composition of builder history, qualification and rendering", "anchors": ["model.go: NewFunc, NewMethod, FuncSpec.writeTo; code.go: CodeBlock methods; model.go: WriteGoFile"]}
{"id": "C51", "title": "QualifyTemplateData does not write the given data", "statement": "QualifyTemplateData writes no memory that exists when it is called: every struct, slice, map and type that the caller has is the same afterwards, also if it panics and whatever the data shares.", "quantifier": "every data in every memory, including cyclic data", "why_tests_cant": "unbounded memory with arbitrary sharing", "anchors": ["templates.go: QualifyTemplateData, qualifyTemplateData, qualifyTemplateDataReflect; types.go: EnsureTypeImported; imports.go: EnsureTypeImported"]}
{"id": "C52", "title": "Sharing in template data has no influence", "statement": "QualifyTemplateData on data with shared parts gives data that is, as a tree, the one which results from the tree of the given data, and panics in the same cases; the very same pointers, slices and maps are returned if no reference needs another name. Keys of maps may be pointers and types, which are compared by address; struct and array keys that contain pointers or types are excluded.", "quantifier": "every data without cycles, any sharing, any imports", "why_tests_cant": "unbounded data and memory, arbitrary aliasing", "anchors": ["templates.go: QualifyTemplateData, qualifyTemplateData, qualifyTemplateDataReflect"]}
{"id": "C53", "title": "QualifyTemplateData terminates", "statement": "QualifyTemplateData returns or panics for every template data.", "quantifier": "every data in every memory", "why_tests_cant": "unbounded data; cyclic data recurses without end", "anchors": ["templates.go: qualifyTemplateData, qualifyTemplateDataReflect"]}
{"id": "C54", "title": "Signatures and types behave like values", "statement": "A type obtained from a signature by FuncTypeFromSig or ToTypeName, or made from other types, is afterwards what it was, whatever is done with the signature (AddArg, AddResult, SetVariadic, qualification in a file), and AddArg/AddResult on one signature have no influence on another, however much room append leaves.", "quantifier": "every program of constructor, chained method, ToTypeName and qualification calls", "why_tests_cant": "histories of calls over unbounded memory with shared arrays", "anchors": ["types.go: Signature.AddArg, AddResult, SetVariadic, FuncTypeFromSig; model.go: FuncSpec.ToTypeName, FuncSpec.qualify, InterfaceMethod.ToTypeName, InterfaceMethod.qualify"]}
{"id": "C55", "title": "A written file is a Go source file with the declarations it was built from", "statement": "If names are identifiers, types are ones that rendering gets right, initializers and function code have balanced brackets and initializers do not end early, then the text written for a file, read by a Go lexer and parser, is a source file with the package name, the imports and exactly the declarations (constants, variables, types, functions, methods) of the file, in order; no comment, tag, path or code changes how something else is read.", "quantifier": "every file with any elements, comments, imports and code that meets the conditions", "why_tests_cant": "unbounded files, types, comments and code", "anchors": ["model.go: WriteGoFile, GoFile.writeTo, ConstDecl.writeTo, VarDecl.writeTo, TypeDecl.writeTo, FuncSpec.writeTo; imports.go: ImportSpecs"]}
{"id": "C56", "title": "A written file means what it was built from", "statement": "Reading the text written for a file and resolving every name in its types through the import statements in that very text gives the declarations that the elements were built to be: the same names, and types that refer to the same symbols, each identified by import path and name, although qualification has replaced package names meanwhile. Conditions: package names are truthful and identifiers, own symbols are declared in the package, no import takes the name of a declaration of the package or of a predeclared type, types of constants, variables and fields are not named *TypeSpecs.", "quantifier": "every file with any elements and imports that meets the conditions, any prior use of its Imports", "why_tests_cant": "unbounded files, types and import tables", "anchors": ["model.go: WriteGoFile, GoFile.qualify, GoFile.writeTo; types.go: EnsureTypeImported; imports.go: EnsureTypeImported, ImportSpecs"]}
{"id": "C57", "title": "Qualification of types and signatures terminates", "statement": "EnsureTypeImported, QualifyType, EnsureAllTypesImported and QualifySignature return or panic for every type and signature; the same holds for FuncSpec, InterfaceMethod and everything else that is qualified through them.", "quantifier": "every type and signature in every memory", "why_tests_cant": "unbounded memory with arbitrary sharing; a signature can have itself as argument type", "anchors": ["imports.go: EnsureTypeImported, QualifyType, EnsureAllTypesImported, QualifySignature; types.go: FuncTypeFromSig"]}
{"id": "C58", "title": "After WriteGoFilesToFileSystem the files are on the disk", "statement": "If WriteGoFilesToFileSystem returns nil, each file is at the root joined with its package path and name, with exactly its formatted text (the last one where paths agree), and no other file has changed. After a failure the files before the one that failed are complete, those after it untouched, and the one that failed is as before (not opened), empty (not formatted, panic) or arbitrary (failed write).", "quantifier": "every list of files, every initial disk, every behaviour of the file system", "why_tests_cant": "all failure patterns, files with the same path, shared elements", "anchors": ["model.go: WriteGoFilesToFileSystem, WriteGoFiles, WriteGoFile"]}
{"id": "C59", "title": "Without unsafe, template data is qualified except for unexported fields", "statement": "In builds with the tags appengine, gopherjs or purego QualifyTemplateData qualifies the references in exported fields as it does otherwise, and ignores unexported fields: their values are kept and have no influence on the rest or on the imports. For data without unexported fields it makes no difference which build it is.", "quantifier": "every template data, every Imports state", "why_tests_cant": "unbounded nested data", "anchors": ["templates_no_unsafe.go: getField; templates.go: qualifyTemplateData; imports.go: QualifyTemplateData"]}
{"id": "C60", "title": "Lists given to declarations, code and specs are kept", "statement": "Declarations, code blocks, files and specs, and the slices of the caller, hold after any calls what was put into each of them and nothing else: adding to one, storing into a slice of the caller or writing a file with code has no influence on another, however much room append leaves.", "quantifier": "every program that makes, shares, slices, copies, appends to and stores into lists, every behaviour of append", "why_tests_cant": "histories of calls over unbounded memory with shared arrays", "anchors": ["model.go: NewConstDecl, NewVarDecl, NewTypeDecl, AddConst, AddVar, AddType, AddElement, NewTypeSpec, NewStructTypeSpec, NewInterfaceTypeSpec; code.go: Printf, RenderCode, AddCode, line.qualify; types.go: StructType, InterfaceType, Fields, Methods, Embeds"]}
{"id": "C61", "title": "References in templates are shown with the file's package names", "statement": "What a template writes for a reference in its data, after qualification, is the reference in Go syntax with the package name that is imported in the file: also inside of nested structs, maps, slices and arrays, in loops, behind pointers and interfaces. Text and other values are shown as without qualification.", "quantifier": "every template of text, paths, loops, conditions, variables and nested templates, every data, every Imports state and everything that is imported afterwards", "why_tests_cant": "unbounded templates and nested data", "anchors": ["code.go: templ.qualify, templ.writeTo; templates.go: qualifyTemplateData; imports.go: QualifyTemplateData; model.go: String of specs; names.go: String"]}
{"id": "C62", "title": "Writing a file adds no unused imports", "statement": "Every import that WriteGoFile adds to a file is of a package that is used in the file: by a type that is written there, by an argument of a line that is written with its package, or by the data of a template.", "quantifier": "every file and heap, every initial Imports state", "why_tests_cant": "unbounded files and types; Go rejects unused imports", "anchors": ["model.go: WriteGoFile, qualifyType, TypeSpec.qualify, TypeSpec.writeTo, FuncSpec.qualify; code.go: line.qualify, templ.qualify; imports.go: EnsureTypeImported"]}
{"id": "C63", "title": "Files that share nothing do not influence each other", "statement": "Writing a file changes nothing but the types, signatures, line arguments and template data that the file is made of, and its own imports. What is written for a file depends only on these, on the unnamed types and embedded interfaces that its lines and templates show, and on names and packages. So files that share none of this are written the same in any order, each as if it were the only one; elements of one file may be mentioned by name in another. Formats and templates show specs by their String methods or names.", "quantifier": "every heap, every list of files, every order, every outcome of the other files", "why_tests_cant": "unbounded files and heaps, arbitrary sharing inside of a file", "anchors": ["model.go: WriteGoFile, WriteGoFiles, qualify and writeTo of all elements; code.go: line.qualify, line.writeTo, templ.qualify, templ.writeTo; templates.go: qualifyTemplateData"]}
{"id": "C64", "title": "Names of imports can be used in Go", "statement": "If the names that are given for packages are identifiers that Go allows for imports, or left empty because they are not known, then every prefix that an Imports returns is such an identifier followed by a dot, and so is the name in the import statement.", "quantifier": "every history of calls, every package path", "why_tests_cant": "unbounded histories and path strings; the documentation says that an empty name leads to code that compiles", "anchors": ["model.go: Package, NewPackage; imports.go: RegisterImport, RegisterImportForPackage, PrefixForPackage, path.Base"]}
{"id": "C65", "title": "Types from go/types and reflect are written as the types they are", "statement": "A type that is converted by TypeNameForGoType or TypeNameForReflectType, qualified for a file and written there is a text which Go, resolving the names through the import statements of the file, reads as the type it was converted from.", "quantifier": "every go/types type and every reflect type that is converted, every history of calls on the Imports before and after", "why_tests_cant": "unbounded nested types, unbounded histories", "anchors": ["types.go: TypeNameForGoType, TypeNameForReflectType, String; imports.go: EnsureTypeImported, ImportSpecs"]}
{"id": "C66", "title": "What is written for a reference refers to it", "statement": "What is written in code or by a template for a package, symbol, method or type refers, when Go resolves the names through the import statements of the file, the declarations of its package and the predeclared names, to what the reference stands for.", "quantifier": "every argument of a line and every reference in template data, every history of calls on the Imports before and after", "why_tests_cant": "unbounded histories and types, arbitrary heaps", "anchors": ["code.go: line.qualify, templ.qualify; imports.go: qualify, registerPackage, EnsureImported, QualifyTemplateData, ImportSpecs; names.go: Symbol.String, MethodReference.String"]}
{"id": "C67", "title": "No name is declared twice in a written file", "statement": "If nothing is declared twice by the files of a package, then in the text written for a file of the package no name is declared twice: the imports have different names, and none has the name of a declaration of the package. With package names that cannot clash, the file that is written passes Go's checks of names: it is a source file that means what it was built to mean, uses the imports that were added, and refers in its code to what was given.", "quantifier": "every file and heap, every history of calls on its Imports, every set of declarations in other files", "why_tests_cant": "unbounded files, types and histories", "anchors": ["imports.go: RegisterImport, prefixForPackage, ImportSpecs; model.go: WriteGoFile, writeTo of all elements, NewGoFile, AddElement"]}
{"id": "C68", "title": "Which files can be written", "statement": "WriteGoFile gets to the formatter exactly if the file is made of usable parts: no pointer in it is nil, arguments of lines that are specs were added to a file, no type spec contains itself through its fields, no declaration is empty and without comment, a field with the spec of a declared type refers to one that was added to a file, and the templates execute. Otherwise it panics or does not return.", "quantifier": "every file, every heap whose types are as the constructors make them and whose template data can be rebuilt", "why_tests_cant": "unbounded files, specs nested in specs without bound, cyclic heaps; exact condition", "anchors": ["model.go: WriteGoFile, qualify and writeTo of all elements, ToSymbol of all specs; code.go: line.qualify, line.writeTo, templ.qualify, templ.writeTo; templates.go: qualifyTemplateData"]}
{"id": "C69", "title": "A package is written as a Go package", "statement": "If the files of a package share no parts, declare nothing twice between them, and no package they mention can get a name that clashes with a declaration of any of them, then the files that are written are a Go package: the same package clause, nothing declared twice, imports that clash with nothing in any file; each file means what it was meant to mean with the names that the written files declare, and references in code, also to declarations of other files, refer to what was given. Such files can be written, and after WriteGoFilesToFileSystem has returned nil the package is on the disk.", "quantifier": "every number of files, every heap; formatters that leave source files what they are", "why_tests_cant": "unbounded numbers of files and declarations; composition of C56, C58, C62, C63, C66, C67 and C68 over the files of a package", "anchors": ["model.go: WriteGoFiles, WriteGoFilesToFileSystem, WriteGoFile, qualify and writeTo of all elements"]}
{"id": "C70", "title": "Packages are renamed only when they must be", "statement": "A package that is imported when a file is written gets the first of the names base, base1, base2, ... that no other import of the file has, base being its name as the file mentions it, and the import statement gives the name exactly if it differs from the one mentioned. All packages keep their names exactly if no two that are reached from the file have the same name, none has the name of an earlier import, and none is mentioned under two names; then the import statements of a new file give no names.", "quantifier": "every file and heap, every history of calls on the Imports of the file", "why_tests_cant": "unbounded files; exact condition", "anchors": ["imports.go: prefixForPackage, RegisterImport, ImportSpecs; model.go: WriteGoFile, qualify of all elements"]}
{"id": "C71", "title": "Adding to a file leaves what is there as it was", "statement": "If elements are added to a file that share nothing with the elements that are there, then what was written for the file is still written: every import statement that was there is there, with the same name, the text of the elements that were there is the same and in the same order, and the text of the new elements follows.", "quantifier": "every file, every heap, every list of added elements", "why_tests_cant": "unbounded files; frame property of qualification and rendering", "anchors": ["model.go: AddElement, WriteGoFile, qualify and writeTo of all elements; imports.go: prefixForPackage, ImportSpecs"]}
{"id": "C72", "title": "Parameters do not hide what the code of a function refers to", "statement": "In the body of a function that is written, what is written for a reference in its code (an argument of a line, or a value shown by a template) refers to what was given, by Go's scoping rules with the receiver, parameters and results of the function: none of them has the name of an import that the reference is written with.", "quantifier": "every file and heap, every history of calls on its Imports, every signature", "why_tests_cant": "unbounded files, types and histories; exact condition", "anchors": ["model.go: FuncSpec.writeTo, FuncSpec.qualify, AddArg, AddResult; code.go: line.qualify, templ.qualify; imports.go: prefixForPackage"]}
{"id": "C73", "title": "Elements in another order have the same text", "statement": "If the elements of a file have nothing in common and no two packages that it has to import have the same name, then the order of the elements is of no importance: with the elements in another order the same texts of elements are written in that order, after the same package clause and import statements. Also every selection of the elements can be written then, with the same texts of elements, the same names and no other imports. In general, the text of an element depends on the other elements only through the names of the packages: it is the same in every file with the element in which the imports have the same names, and such a file can be written if one of them can.", "quantifier": "every file, every heap, every permutation or selection of its elements", "why_tests_cant": "unbounded files; relation between two runs with different imports", "anchors": ["model.go: WriteGoFile, qualify and writeTo of all elements; imports.go: prefixForPackage, EnsureImported, EnsureTypeImported, EnsureAllTypesImported, ImportSpecs; templates.go: qualifyTemplateData; code.go: line.qualify"]}
{"id": "C74", "title": "The text of a file is Go source text", "statement": "If the names, comments and formats that a file is made of are valid UTF-8 without NUL and byte order mark (the bytes that the Go language allows in source text), then so is the text that is written for the file, whatever bytes are in struct tags, import paths and the canonical import path: they are quoted. Exactly: the text is Go source text if and only if the comments, the package name, the names in import statements and the texts of the elements are.", "quantifier": "every file and heap, every history of calls on its Imports, all byte strings", "why_tests_cant": "unbounded files and strings; byte-level encoding", "anchors": ["model.go: WriteGoFile, writeTo and qualify of all elements, writeComment; types.go: printing of types and signatures, TypeNameForGoType, TypeNameForReflectType; imports.go: prefixForPackage, ImportSpecs; code.go: line.qualify"]}
{"id": "C75", "title": "A comment is a comment", "statement": "No line of a comment that is written is a directive for the compiler or other tools (//go:..., //line, //export), and no file that is written has a build constraint: neither //go:build nor // +build among the lines before the package clause.", "quantifier": "every file and heap, all comments, every function that trims white space", "why_tests_cant": "unbounded comments; how other tools read the text", "anchors": ["model.go: writeComment, WriteGoFile"]}
{"id": "C76", "title": "Comments document what they were given for", "statement": "As go/doc reads the text of a file, the package is documented by the package comment (and not by the file comment), every constant, variable, type and function declaration by its own comment (for a declaration of a single spec without own comment, that of the spec), and import statements by nothing. The specs of a group, the fields of a struct and the elements of an interface are documented by their own comments, unless the text before them ends with a comment line (which only code or strange names can: types of a group, fields and elements with identifiers as names and valid types never do).", "quantifier": "every file and heap, every history of calls on its Imports, all comments", "why_tests_cant": "unbounded files and comments; how other tools read the text", "anchors": ["model.go: WriteGoFile, writeComment, ConstDecl.writeTo, VarDecl.writeTo, TypeDecl.writeTo, FuncSpec.writeTo, ConstSpec.writeTo, VarSpec.writeTo, TypeSpec.writeTo, FieldSpec.writeTo, InterfaceEmbed.writeTo, InterfaceMethod.writeTo"]}
{"id": "C77", "title": "A file that a template writes alone imports what it refers to", "statement": "A file that consists of what a template writes for template data that an Imports has qualified and, in an import declaration, for the ImportSpecs of this Imports (doc.go) is read by Go as importing exactly the packages of the Imports; every reference in the data that the template shows (and that is shown right, see C61) then refers to what it stood for before, if and only if nothing in it is hidden in the file. The text of an ImportSpec is what follows import in the statement, and is read as the import of this path with this alias; different specs have different texts.", "quantifier": "every template of text, paths, loops, conditions, variables and nested templates that writes declarations, every data, every history of calls on the Imports before and after", "why_tests_cant": "unbounded templates, data and histories; reading of the text as Go", "anchors": ["imports.go: ImportSpec.String, Imports.ImportSpecs, Imports.QualifyTemplateData; templates.go: qualifyTemplateData; doc.go: Templates"]}
{"id": "C78", "title": "A program writes the Go package that its calls say", "statement": "Take any program of calls of gopoet's constructors and chained methods that builds the files of a package and writes them. What the files are to declare is said by the calls alone: a type is what was given to its constructor, a function has the arguments and results that were added to it, a field the last tag (its type can be a type spec without name, whose fields or methods are written in place; a type can be made from such a spec, too), a group the specs that were added to it. If the names of packages given to the calls are true, are identifiers and are not those of declared or predeclared things, if tags and signatures are set before fields and methods are given to a type, and if the calls that write code (format calls, templates, and AddCode, which copies what the other block has at the time) write code for any names of packages, then every text that is written is a Go source file of the package that declares exactly that, with exactly that meaning; nothing is declared twice, no name of a package is that of a declaration, every import is used by a type or by code, and references in code refer to what was given to the calls. If moreover the types and signatures given to the calls are valid, the data of templates contains no specs and can be set, and packages have paths, then the files can be written: there are such texts, and nothing panics. For several files it is enough that no call brings objects of different files together (code may refer to what other files declare). If nothing fails outside, WriteGoFilesToFileSystem returns nil, and the package is on the disk: each file in the directory of the package, under its name; other files are as before. Comments are those that the calls gave last: the package comment stands directly above the package clause, and the comment of each declaration (or, if it has none, that of its only spec) directly above its keyword, as go/doc reads it; everything that a program makes, also the fields and methods of a type given as a literal, has the comment that was given last. The types of a group, the fields of a struct and the elements of an interface have theirs directly above them, too, and no other comment.", "quantifier": "every program (list of calls) with any number of files, types, values, functions and code; any order of the calls that keeps the rules", "why_tests_cant": "unbounded programs; the specification is about the calls, the result about the text read as Go", "anchors": ["model.go: all constructors and chained methods, AddElement, AddType, AddConst, AddVar, WriteGoFile, qualify and writeTo of all elements; code.go: Print, Println, Printf, Printlnf; imports.go; model.go:196-257: WriteGoFile, WriteGoFiles, WriteGoFilesToFileSystem"]}
{"id": "C79", "title": "NaN in the keys of maps in template data", "statement": "References in template data get the package names of the imports, and nothing else is changed, also in maps that have keys with floating-point NaN in them (which Go cannot look up again).", "quantifier": "every data (tree), whatever numbers are NaN; every state of the imports", "why_tests_cant": "unbounded data; keys that are not equal to themselves", "anchors": ["templates.go:205-226: qualifyTemplateData, maps; imports.go: QualifyTemplateData"]}
{"id": "C80", "title": "Receivers that methods share", "statement": "Methods keep the pointer to the receiver they were made with. A program that shares receivers between methods, changes their fields at any time or assigns them to functions makes what the program makes that gives each method its final receiver at the beginning; the final receiver of a method is what was last assigned to the one it was made with, unless it got another. If no receiver is changed after it was given to a method, and none is assigned, methods have the receivers that they were made with.", "quantifier": "every program (list of calls, among them any changes of receivers)", "why_tests_cant": "unbounded programs; aliasing", "anchors": ["model.go:1427-1444: FuncSpec.Receiver, NewMethod; model.go:1642-1656: ReceiverSpec, NewReceiver"]}
