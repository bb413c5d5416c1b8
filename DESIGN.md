# Formal model of jhump/gopoet in Lean 4 — design

## Method

The Go code in /repo is read as text and transcribed, function by function, into
total computable Lean functions under `lean/Verif/Model/`. Every definition cites
the Go lines it models. Small specification files under `lean/Verif/Spec/` say,
independently of that transcription, what a user expects (Go's import scoping
rule, the grammar of Go types, the value of a Go string literal, ...). Lemmas are
in `lean/Verif/Proof/`. Property theorems are in `lean/Verif/Props/`, named after
the property they belong to (`C07_...`), with `example`s that show that their
hypotheses are met by a concrete case.

If a property does not hold of the code, the full statement stays visible as a
definition `Cnn_full`, its negation is proved (`Cnn_full_fails`) with a concrete
input, and the strongest version that does hold is proved with the suffix
`_partial`. Such properties count as partial in MANIFEST.json.

Modelling decisions that apply everywhere:

* A Go `string` is `List UInt8` (`GoString`): arbitrary bytes, also invalid UTF-8.
* A Go panic is a value: functions that can panic return `Outcome`
  (`ok`, `panic` or `hang`, the latter for loops and recursion without end).
* A nil `TypeName` interface is an explicit constructor.
* Go maps are association lists with `get`/`set`; iteration order is a permutation
  that theorems quantify over.
* `for {}` of `prefixForPackage` takes fuel; a theorem shows that the fuel given
  suffices, i.e. that the loop terminates. Recursion over `*TypeSpec`s, which can
  be cyclic, takes fuel; theorems hold for every fuel.
* Pure model first (values as trees). Files, declarations, specs, code lines and
  template data are objects on a heap (`Model/Heap.lean`), since they are changed in
  place. Types are immutable trees, except in `Model/Memory.lean`, where the
  qualification of types is modelled once more with addresses, slices and stores.
  Template data is modelled the same two ways: as trees (`Model/Template.lean`), and in
  memory with sharing and cycles (`Model/DataMemory.lean`); C52 relates the two.

## Trusted base

* The Lean kernel, and Lean's axioms `propext`, `Quot.sound` and
  `Classical.choice`. AXIOMS.md lists for each property theorem which of them it
  depends on. There are no others: no `sorry`, no compiler-based proofs. Some
  examples use `decide +kernel`, which is evaluation by the kernel.
* That the definitions in `Model/` say what the Go code does. They were transcribed
  by hand; the cited lines are meant for checking by reading, and `Check/` runs the tests
  of the repository on them.
* That the definitions in `Spec/` and the statements in `Props/` say what is meant.
* Parts of Go's standard library, transcribed from their documentation or source:
  UTF-8 decoding and encoding (`Model/Utf8.lean`), `strconv.Quote` and `CanBackquote`
  (`Model/Quote.lean`), `path.Base`, `filepath.Ext`, `Clean`, `Join`, `Dir` for Unix
  (`Model/GoPath.lean`, `Model/Output.lean`), `strings.Split` and `Join`
  (`Model/Text.lean`), `fmt.Fprintf` for `%s %v %d %q %%` without flags
  (`Model/Fmt.lean`), `text/template` for text, paths, variables, `range`, `if`, `with`, conditions, `len` and `template`
  (`Model/TemplateText.lean`, for C61 only), `sort.Slice` as any sort (C06 shows that its algorithm does
  not matter).

Parameters, over which theorems are quantified, so nothing is assumed about them
unless a theorem says so:

* the Unicode tables (`IsPrint` above U+00FF, upper and lower case of letters)
* `fmt` for other verbs and formats, `text/template` (except for C61), `go/format` (`Env`)
* writers, open functions, directories (`World`): any answer to any call, which may
  depend on all earlier calls
* the order in which maps are enumerated

## What is modelled

| Go source | model | remarks |
|-----------|-------|---------|
| imports.go | Imports, ImportText, Memory, Template | everything |
| names.go | Names, Utf8 | everything |
| types.go: types, constructors, accessors, rendering | Types, Render, Quote, SigMemory | everything |
| types.go: conversions from go/types and reflect | GoTypes, Reflect | the values of these packages are trees |
| code.go | Code, Fmt, TemplateText, Builders, ListMemory | everything; see `fmt` and `text/template` above |
| templates.go, templates_unsafe.go | Template, DataMemory | everything |
| templates_no_unsafe.go | TemplatePure | everything |
| model.go: files, declarations, specs, receivers | Heap, File, Fmt, Builders, ListMemory | everything |
| model.go: WriteGoFile, WriteGoFiles, ...ToFileSystem, ...ToGoPath | Output | calls to the outside as a trace |

Without a definition of their own, because there is nothing to say: the marker methods
(`isTypeName` and the like), `String` methods that call `typeNameToString`,
`TypeSpec.Underlying` and `IsAlias` (fields), `FormatError.Error`.

Not represented:

* Static go/types or reflect types (as types of fields or elements) in template data
  have no form of their own. The code sees them as pointers and structs, and so can the
  model.
* The capacity of slices, except for those of signatures (`Model/SigMemory.lean`) and
  the lists that builders keep (`Model/ListMemory.lean`; C60 tells for which programs
  they are the values that `Model/Builders.lean` takes them for).
* Signatures and types in specs (`Model/Heap.lean`) are values. `Model/SigMemory.lean` has
  them in memory; C54 tells for which programs this is the same.
* NaN in keys of maps in template data, except for `Model/TemplateNaN.lean` (C79).
* Builders: receivers are values in `Model/Heap.lean`. `Model/ReceiverMemory.lean` has
  the pointers that `NewMethod` keeps; C80 tells for which programs this is the same, and
  what the others make. Changes of receivers between two writes are not among the
  programs. Slicing beyond the end of a slice (`s[a:b]` with `b` up
  to the capacity) is not among the programs of C60.
* Generic types in go/types and reflect (the code is older than generics).
* Concurrency: gopoet has none.

## Defects of the code found on the way

Each is shown by a theorem or an example.

1. C17: an interface type with embedded interfaces and methods is written without
   separator between the two; `chan (<-chan T)` is written `chan <-chan T`, which Go
   reads as `chan<- (chan T)`.
2. C18: an import can take the name of an unqualified identifier that is used in a type.
3. C21: `Export` of a letter without upper-case form gives a name that is not exported.
4. C23, C25: go/types objects without package, such as `error`, panic.
5. C24: results of `reflect` function types are stored into the arguments (and panic
   if there are fewer arguments); maps panic; embedded fields become named fields.
6. C30, C34: a named `*TypeSpec` as the type of a constant, variable or field is never
   imported, and is written with its package name even in its own package.
7. C31, C42: a spec in template data that gets another package name loses its import
   path; writing the file again imports `""`.
8. C33: methods given as `*InterfaceMethod`, `*FuncSpec` or `types.Object` are written
   as the bare method name if their package needs no other name.
9. C37: `WriteGoFilesToGoPath` always fails, since a test is inverted.
10. C40: the tag of a field whose type is a struct or interface is written on a line of
    its own, which is not Go.
11. C41: an empty declaration without comment panics when it is written.
12. C42: unexported fields and arrays by value in template data can panic; keys of maps
    can become equal, and then entries are lost; a pointer to an interface becomes a
    pointer to the type of what it holds, which panics inside of other data.
13. C43: which of two packages of the same name is renamed depends on the order in which
    a map in template data is enumerated.
14. C44: the name one `Imports` made up for a package is taken for its real name by
    another one. Code lines are changed in place, so that also code that is shared by
    `AddCode` is affected.
15. C45: `NewReceiverForType` with a nil type gives a receiver without type;
    `NewPointerReceiver` accepts the empty type, which `NewReceiver` does not.
16. C28: a spec that is added to a declaration after the declaration was added to the
    file has no parent, and cannot be referred to.
17. C36: if the formatter rejects the text, the file has already been created or
    truncated, and stays empty.
18. C57: cyclic `*TypeSpec`s and signatures lead to recursion without end; a signature
    becomes cyclic by adding its own function type as an argument.
19. C33: `Signature` has no `String` method, so that a signature in code is written by
    `fmt` as a Go struct.
20. C53: cyclic template data leads to recursion without end, even if it contains no
    reference at all.
21. C52: if something in template data needs another name, parts that were shared are
    copied for each place that refers to them.
22. C46: the name that `NewPackage` derives need not be an identifier (`yaml.v2`).
23. C54: the type that `FuncSpec.ToTypeName` gives for a function without receiver is the
    function's signature itself: `AddArg` on the function changes the type, and writing a
    file with the function puts that file's package names into it (compare C44).
24. C54: copies of a `Signature` and the signatures of types share the room that `append`
    left: of two arguments added to two copies one can be lost.
25. C59: without `unsafe`, a struct with an unexported field panics if another field changes.
26. C58: the error of `Close` is dropped, so that `WriteGoFiles` can return nil although a
    file was not stored.
27. C60: declarations, struct and interface specs and code lines keep the slice that they
    are given as `s...`. Two declarations from the same slice with room overwrite each
    other's additions, and writing a file stores into the slice of arguments that the
    caller gave to `Printf`.
28. C61: values of go/types in template data whose package keeps its name are left as they
    are, and print by their own `String`, which is no Go syntax (`x/q.T`, `func x/q.F()`,
    `package q ("x/q")`).
29. C61: methods in template data that are given as `*FuncSpec` or `*InterfaceMethod` are
    shown as the bare name whatever their package is called (compare 8).
30. C62: for a named `*TypeSpec` as the type of a constant, variable or field the packages
    in its body are imported, which are only used where the type is declared. If that is
    another file, the import is not used, and the Go compiler rejects the file.
31. C62: the package of a method that is written as its bare name (8) is imported all the
    same.
32. C64: for a package without name the alias is the last element of the path, also if that
    is no identifier (`gopkg.in/yaml.v2`, `x/go-foo`), a keyword, `_` or `init`. The
    documentation of NewPackage says that the resulting code will compile.
33. C66: a `Package` for the file's own package is written as nothing in code, so that
    `%s.Foo` becomes `.Foo`. An import can also take the name of a declaration or predeclared
    function that code refers to by a `Symbol` (compare 2).
34. C67: an import can have the name of a declaration of the same package (`var time time.Time`),
    which Go does not allow even if the name is not used.
35. C72: an import can have the name of a receiver, parameter or result of a function whose code
    refers to the package (`func F(q int) { q.A(q) }`). In the body, the name is the parameter.
36. C75: a line of a file comment that starts with `+build` is written as `// +build`, with an
    empty line after the comment, which is a build constraint: the file can be left out of the
    package. (A package comment has no such effect.)
37. C79: in a map in template data, what is at a key with NaN in it is not qualified, and the
    entry is lost if something else in the map changes.

## Checks of the model against the repository's tests

`Check/EndToEnd.lean` and `Check/Unit.lean` make the calls of gopoet_test.go, imports_test.go,
names_test.go and types_test.go on the model and compare what comes out with what these tests
expect, by evaluation in the kernel. The end-to-end tests compare with the files in
test-outputs, line by line without white space, since the formatter is not modelled. This
is evidence that the transcription is right, independent of the theorems.

## Mutation tests

`tools/gen_mutants.py` writes `seeded/mutants.json`: small wrong programs, each a change
of one model definition as a programmer could make it. `tools/mutate.py` applies each to
a copy of the development, rebuilds, and records in `seeded/LOG.jsonl` which theorems no
longer check. A theorem counts as `failed` if its own proof fails or one of the lemmas
that it is built on; `failed_directly` lists those whose own proof fails. A failing proof
does not mean that the statement is false, so this is evidence, not proof, that the
theorems notice. Theorems that were added or made stronger since a mutant went unnoticed
are in the column `tightened`.

`tools/automutate.py` does the same with generated edits (negated conditions, other
constants, exchanged or dropped operands) of single lines of the model. It stops at the
first theorem that fails; examples that fail are dropped, so that only theorems count.
These entries have ids that start with `A`.

## Per property plan

| id | what is modelled | how it is proved |
|----|------------------|------------------|
| C01 | `Imports` state and all registering operations | invariant over operation histories |
| C02 | same | monotonicity of the path table over histories |
| C03 | same | invariant: own path never in the table |
| C04 | alias loop with fuel | pigeonhole: candidates are pairwise different, the table is finite |
| C05 | `Qualify*` with `registerIfNotFound=false` | mutual induction on types |
| C06 | `ImportSpecs` with arbitrary iteration order and arbitrary sort | uniqueness of strictly sorted permutations |
| C07 | import statements + Spec of Go scoping | invariant + C01 |
| C08 | `qualify` | case analysis on reachable states |
| C09 | `qualifyType` etc. | from C10 + stability C02 |
| C10 | `qualifyType` etc. vs. Spec map over symbols | mutual induction |
| C11 | imported path set vs. Spec list of mentioned paths | mutual induction |
| C12 | validity predicate, outcome monad | mutual induction |
| C13 | heap-level qualification (slices and pointers as addresses) | refinement of the pure model + frame |
| C14 | registration sequences | induction, characterisation of final table; exactly when the order has no influence (`C14_order_iff`: the packages would get different prefixes if each were the only new one) |
| C15 | accessors | case analysis over all constructors |
| C16 | constructors | case analysis, all inputs |
| C17 | rendering; Spec lexer and parser of Go types | mutual induction; two known defects excluded by explicit predicate, shown as counterexamples, and shown to be exactly what goes wrong (`C17_parses_back_iff`) |
| C18 | C17 + C10 + C07 | composition |
| C19 | strconv.Quote / CanBackquote; Spec of string literals | induction on the byte string |
| C20 | signature rendering | induction on parameter lists |
| C21, C22 | UTF-8 decoding/encoding, Export/Unexport, Unicode tables as parameter | case analysis + UTF-8 round trip |
| C23 | go/types types as inductive type | mutual induction against denotation |
| C24 | reflect types as inductive type | counterexamples (results, maps) + exact characterisation of the types that work |
| C25 | objects | case analysis |
| C26 | writeComment | induction |
| C27 | filepath.Base/Ext, NewGoFile | induction on strings |
| C28 | heap of files and specs | invariant over add operations |
| C29 | GoFile.writeTo | explicit equation against Spec layout |
| C30 | file qualification | induction over elements; counterexample with named specs |
| C31 | double qualification | idempotence (with specs in template data: exactly if their copies fit, and always from the second time on); counterexample with templates |
| C32 | CodeBlock, fmt.Fprintf for plain verbs | induction |
| C33 | line.qualify | case analysis; counterexamples for methods |
| C34 | qualifyType/writeTo with *TypeSpec | counterexample |
| C35, C36 | trace model of WriteGoFiles | induction over files |
| C37 | WriteGoFilesToGoPath | it always fails: negation proved |
| C38 | path.Clean / filepath.Join | induction over path elements |
| C39 | spec constructors | case analysis + list lemmas; exact condition for the text |
| C40 | FieldSpec.writeTo | counterexample for unnamed struct/interface types + exact condition |
| C41 | Decl.writeTo | case analysis; exact condition for type declarations |
| C42 | template data as inductive values; `TVal.Copyable` and `TVal.Preserved` (Spec/Copyable.lean) tell from the rules of reflection which data is rebuilt right | mutual induction |
| C43 | map order in imports (holds) and templates (fails, exactly if the import statements change) | permutation argument / counterexample |
| C44 | two Imports | counterexample (alias becomes a package name) + partial, exact (`C44_types_iff_partial`, `C44_files_iff_partial`) |
| C45 | receivers | case analysis |
| C46 | NewPackage, NewSymbol | path.Base (C04) |
| C47, C48, C49 | constructors and chained methods as calls on the heap | invariant over sequences of calls: each object is what the calls on it say |
| C50 | functions and code blocks made by constructors, with qualification and rendering | composition of C47, C49 with C29, C33 |
| C51 | template data in memory | every step only adds memory |
| C52 | same | simulation: each run in memory follows the run on the tree; changed keys that are pointers or types are new, hence differ from all others |
| C53 | same, with cycles defined on the graph of what holds what (`Spec/Cycles.lean`) | reachable memory is finite, hence no cycle means well-founded; induction on that; well-foundedness of what was visited for the converse |
| C57 | types and signatures in memory | same as C53 |
| C58 | trace model of WriteGoFilesToFileSystem, effect of calls on a disk | induction over files |
| C59 | template data, build without `unsafe` | simulation by the ordinary build |
| C79 | template data with keys that are not equal to themselves (`Model/TemplateNaN.lean`) | simulation by `qualifyData` on data with numbers at these keys (`Abreast`); `keyEq` keys agree in having NaN |
| C80 | receivers with addresses (`Model/ReceiverMemory.lean`) | no call looks at receivers (`exec_over`): the calls commute with giving all functions other receivers |
| C60 | lists in builders and memory | simulation of arrays by places |
| C61 | fragment of text/template, `String` of what is in the data | paths before and after qualification; C42 for the values; for files: step by step, the data of a template are as they were or the outcome of one qualification (`templ_later`) |
| C62 | WriteGoFile | what is reached from an element stays reached or gets imported, step by step, and in the other direction (`Moves`); hence the pass imports just what is reached in the beginning; for the text: what is used is referred to by the intended meaning, which by C56 is that of the text, where only a name of the import can refer to it |
| C63 | WriteGoFile, WriteGoFiles | qualification is local (`QM.Local`): it stays within the places that the elements are made of and does the same in heaps that agree there; the text is the same in heaps that agree in what is shown. For formats and arguments outside of Model/Fmt.lean it is assumed that `fmt` uses `String` methods and templates show specs by them (`Env.WritesByString`, which asks nothing of formats that are modelled, and of templates only what matters for their data) |
| C64 | RegisterImport, PrefixForPackage | names are `candidate`s of the base name (C04): with a number appended a word is always an allowed name, without one it is if the base name is; names are kept (C02) |
| C65 | TypeNameForGoType, TypeNameForReflectType, EnsureTypeImported, String | C23 and C24 (the converted type denotes the given one) with C18 (the text means the type name); the conditions of C18 are read off the Go type (refs_type, awkward_type, proper_type) |
| C66 | line.qualify, QualifyTemplateData, EnsureImported, String | C33 and C61 (the text is the reference with the names in the file) and C07 (a qualifier stands for one package); texts `a`, `a.b`, `a.b.c` are split at dots and the first name is resolved; types by C18; for files: step by step, an argument is as it was or done, and done ones stay (`ArgOk`) |
| C67 | WriteGoFile, ImportSpecs, names of elements | a parsed file declares what its elements are called (names are never changed); import names differ by C01; packages that avoid names avoid them step by step (`AvoidState`) |
| C68 | WriteGoFile, qualify and writeTo of all elements | each action returns iff a condition holds that qualification does not change (`SameFrame`, kept by every step); nested specs by induction on the bound, and the bound is shown not to matter (`Proof/Fuel`) |
| C69 | WriteGoFiles, WriteGoFilesToFileSystem | each file is written as if alone (C63), and the theorem about one file is applied with the declarations of the others (`file_names_all`); conditions on the files are collected in `PackagePart.Good` |
| C70 | prefixForPackage, WriteGoFile | the imports of a file evolve by steps of `prefixForPackage` with packages that are reached from the elements (`qualifyFile_adds`); what a package would be called alone is `Package.ownName`, which packages are reached is `Visited`; the package path "" of copied specs (defect of templates) must not be imported in the exact condition |
| C71 | AddElement, WriteGoFile | qualification of the earlier elements comes first and does not depend on the list of elements (`QM.Local`, with a skeleton that leaves out the elements of files); the later ones change nothing that the earlier ones contain or show; `Heap.withElements` is the heap in which the file has only the earlier elements |
| C72 | FuncSpec.qualify, FuncSpec.writeTo, line.qualify, templ.qualify | the function that is read from the text declares the names of the spec (`locals_of_spec`), and qualification keeps them; a text means in the body what it means in the file iff its first name (for types: those of all names in it) is not declared by the function (`text_means_in_iff`); the rest is C66 and C67 |
| C73 | WriteGoFile, qualify of all elements | two runs of the pass on the same heap that end with the same names for the same packages have the same result and leave the same heap (`QM.Synced`, proved for every action without conditions on the packages); with `QM.Local` this gives each element the same contents in every order; C70 and C62 give the same tables when no name is taken twice; a run that follows another one then imports nothing else, so that it succeeds as well, also with some of the elements only (`QM.Follows`, Proof/Led.lean) |
| C74 | WriteGoFile, writeTo of all elements | source text can be cut at every ASCII byte, so each written piece can be treated alone; `quote` writes source text for every byte string (needs `isPrint 0xFEFF = false`, as in Go); conversions and qualification keep names legible, new package names are `ownName` plus decimal digits (C70). Hypotheses on what is not modelled: what templates write, and what fmt writes for verbs outside the modelled ones, is source text |
| C75 | writeComment, WriteGoFile | the lines before the package clause are exactly the lines of the two comments and the empty line between them (`leadingLines_text`); go/build's rules for constraints are the Spec, over any function that trims white space (laws `TrimsSpace`, with an instance) |
| C76 | WriteGoFile, writeTo of all elements, writeComment | `docAbove` (Spec/Docs.lean) are the comment lines directly above a place in the text; every piece of text ends with the end of a line and every element stands after an empty line, so that nothing else gets into the comment of an element; comments are in the part of the heap that qualification keeps (`Heap.skeleton`, C63). C76_struct, C76_interface and C76_type_group have no condition on the text: types with identifiers as names are written without end of line in them (Proof/OneLine.lean) and do not begin like a comment |
| C77 | QualifyTemplateData, ImportSpecs, ImportSpec.String, shown by one template | the template is `wholeFile` (Spec/TemplateWhole.lean): package clause, import declaration in parentheses with `{{.}}` for each spec, a nested template for the data; C61 for the text of the body, the lexer and parser of C55 for the import declaration, C66 for the meaning of references |
| C78 | programs: lists of calls of the constructors and chained methods (Spec/Builders.lean) | Spec/Program.lean says what a program says, in terms of the calls alone (`SaysFile`: `Made` finds the call that made an object, later calls give it tags, arguments, specs, initializers), what is asked of the calls (`Proper`), and what is asked of code (`CodeSays`: for any names of packages the code reads as a body or an initializer). `codeGiven` says what calls wrote a block, also if it was copied with `AddCode`, which copies what the other block has at the time (Proof/ProgramGiven.lean). Templates as code are those of the modelled part of text/template (`KnownTemplates`), and `templateMeans` says what they write. C78_file/C78_program are for one file next to others, C78_package/C78_package_program for files that share nothing and are written in turn. C78_written/C78_package_written are about programs that are `Sensible` too (valid types and signatures, template data without specs in which everything can be set, packages with paths): these can be written, their templates execute, import no empty path (Proof/ProgramSound.lean, Proof/ProgramImports.lean), and need no assumption on what `fmt` and text/template do outside of the model (`FileSaid.writesByString`). In C78_apart that files share nothing is asked of the calls: with some assignment of objects to files, no call brings objects of different files together (`FilesApart`, Proof/ProgramApart.lean). C78_disk adds the file system: if nothing fails outside, the package is on the disk, each file under the name that was given to `NewGoFile`, and nothing else has changed. Type specs without name can be types of fields, nested in any depth, and others can be made from them (`SaysSpec`, example in Props/ProgramNested.lean). Comments: `givenComment` is what the calls gave last, and C78_documented finds it above each declaration of the text, C78_members above the specs of groups, the fields of structs and the elements of interfaces (Props/ProgramMembers.lean), C78_comments in every object (Props/ProgramDocs.lean). Programs that use a named `*TypeSpec` as the type of a field, a `*TypeSpec` as the type of a value, or method specs as format arguments are outside of `SaysFile` and `Proper`; C78_written and what follows from it also leaves out specs in template data. C78_type_members: types of groups, fields and elements of interfaces have the comments that the calls gave, with conditions on the calls only (C78_members, also for groups of constants and variables, has a condition on the text, because initializers can end with a comment) |
| C54 | signatures and types in memory, `append` with any growth | simulation of programs by programs on values: memory that types refer to does not change any more, arrays grow at the end only |
| C55 | GoFile.writeTo, read back by a lexer and parser for Go files (`Spec/FileSyntax.lean`) | each element is a sequence of whole lines; lexing and parsing are compositional over lines |
| C56 | WriteGoFile, from the input to the meaning of the text (`Spec/FileMeaning.lean`) | C55, C30 and that qualification only replaces package names (`KeepsSymbols`); names are resolved through the parsed imports |
