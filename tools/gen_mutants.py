#!/usr/bin/env python3
"""Writes seeded/mutants.json: small wrong programs, one edit of one model definition each."""
import json, os
M = []
def m(file, d, edit, claim, old, new, count=1):
    M.append(dict(id=f"M{len(M)+1:03d}", file=file, **{"def": d}, edit=edit, claim=claim, old=old, new=new, count=count))

I = "Model/Imports.lean"
m(I, "prefixForPackage", "the own package gets a prefix like any other", ["C03"],
  "  if importPath = i.pkgPath then (.ok [], i)\n", "  if importPath = i.pkgPath ∧ packageName = [] then (.ok [], i)\n")
m(I, "prefixForPackage", "a known import is registered again under a new name", ["C02"],
  "    | some ex => (.ok (ex.packageName ++ b! \".\"), i)\n    | none =>\n      if !registerIfNotFound then (.panic, i)\n      else\n",
  "    | some ex => if ex.isAlias then (.ok (packageName ++ b! \".\"), i) else (.ok (ex.packageName ++ b! \".\"), i)\n    | none =>\n      if !registerIfNotFound then (.panic, i)\n      else\n")
m(I, "prefixForPackage", "pathsByName is not updated, so names are not reserved", ["C01"],
  "pathsByName := i.pathsByName.set p importPath", "pathsByName := i.pathsByName")
m(I, "prefixForPackage", "isAlias is never set", ["C07"],
  "isAlias := decide (p ≠ packageName)", "isAlias := false")
m(I, "prefixForPackage", "isAlias compares with the base of the path", ["C07"],
  "isAlias := decide (p ≠ packageName)", "isAlias := decide (p ≠ pathBase importPath)")
m(I, "prefixForPackage", "PrefixForPackage registers unknown packages instead of panicking", ["C05"],
  "if !registerIfNotFound then (.panic, i)", "if !registerIfNotFound && packageName == [] && false then (.panic, i)")
m(I, "prefixForPackage", "an empty package name is kept instead of the base of the path", ["C04"],
  "let p := if packageName = [] then pathBase importPath else packageName", "let p := packageName")
m(I, "aliasLoop", "the suffix is not increased", ["C04"],
  "(pkgBase ++ decDigits suffix) (suffix + 1)", "(pkgBase ++ decDigits suffix) suffix")
m(I, "aliasLoop", "suffixes accumulate on the probed name", ["C04"],
  "(pkgBase ++ decDigits suffix) (suffix + 1)", "(p ++ decDigits suffix) (suffix + 1)")
m(I, "trimDot", "the dot is kept", ["C08"],
  "if p.getLast? = some dot then p.dropLast else p", "p")
m(I, "trimDot", "the last byte is dropped whatever it is", ["C08"],
  "if p.getLast? = some dot then p.dropLast else p", "p.dropLast")
m(I, "qualify", "symbols without package are qualified too", ["C08"],
  "if sym.package.name = [] ∧ sym.package.importPath = [] then pure sym", "if false then pure sym")
m(I, "qualify", "symbols without package name are left alone", ["C11"],
  "if sym.package.name = [] ∧ sym.package.importPath = [] then pure sym", "if sym.package.name = [] then pure sym")
m(I, "qualify", "the import path is lost", ["C08"],
  "pure { package := { name, importPath := sym.package.importPath }, name := sym.name }", "pure { package := { name, importPath := name }, name := sym.name }")
m(I, "qualifyType", "map keys are not qualified", ["C10"],
  "      let n ← IM.lift (mapType nkey nelem)", "      let n ← IM.lift (mapType key nelem)")
m(I, "qualifyType", "a map whose key only changes is returned unchanged", ["C10"],
  "    if ce || ck then do", "    if ce then do")
m(I, "qualifyType", "key and element of a map are swapped", ["C10"],
  "      let n ← IM.lift (mapType nkey nelem)", "      let n ← IM.lift (mapType nelem nkey)")
m(I, "qualifyType", "the direction of a channel is lost", ["C10"],
  "let n ← IM.lift (channelType nelem d)", "let n ← IM.lift (channelType nelem 0)")
m(I, "qualifyType", "the elements of slices are not registered", ["C10", "C11"],
  "  | .slice elem => do\n    let (nelem, c) ← qualifyType r elem", "  | .slice elem => do\n    let (nelem, c) ← (pure (elem, false) : IM (TypeName × Bool))")
m(I, "qualifyType", "embedded interfaces are dropped when a method changes", ["C10"],
  "if ce || cm then pure (interfaceType nembeds nmethods, true)", "if ce || cm then pure (interfaceType [] nmethods, true)")
m(I, "qualifySignature", "results are taken from the arguments (typo)", ["C10", "C11"],
  "let (nresults, cr) ← qualifyArgs r results", "let (nresults, cr) ← qualifyArgs r args")
m(I, "qualifySignature", "variadic is lost", ["C10"],
  "pure ({ args := nargs, results := nresults, isVariadic }, true)", "pure ({ args := nargs, results := nresults, isVariadic := false }, true)")
m(I, "qualifyFields", "tags are lost", ["C10"],
  "pure (⟨name, nt, tag⟩ :: rest, c || cs)", "pure (⟨name, nt, []⟩ :: rest, c || cs)")
m(I, "qualifyArgs", "a change of an earlier argument is forgotten", ["C10"],
  "    let (rest, cs) ← qualifyArgs r args\n    pure (⟨name, nt⟩ :: rest, c || cs)", "    let (rest, cs) ← qualifyArgs r args\n    pure (⟨name, nt⟩ :: rest, cs)")
m(I, "specOf", "every import statement has a name", ["C07"],
  "packageAlias := if e.2.isAlias then e.2.packageName else []", "packageAlias := e.2.packageName")
m(I, "insertSpec", "sorted in reverse", ["C06"],
  "if goStringLt x.importPath y.importPath then x :: y :: l", "if goStringLt y.importPath x.importPath then x :: y :: l")
m(I, "sortSpecs", "not sorted", ["C06"],
  "  | x :: l => insertSpec x (sortSpecs l)", "  | x :: l => x :: sortSpecs l")
m(I, "insertSpec", "equal paths are merged", ["C06", "C07"],
  "  | y :: l => if goStringLt", "  | y :: l => if x.packageAlias = y.packageAlias then insertSpec x l else if goStringLt")

T = "Model/Types.lean"
m(T, "pointerType", "no check for nil", ["C16"], "if t.isNil then .panic else .ok (.ptr t)", ".ok (.ptr t)")
m(T, "arrayType", "length 0 is refused", ["C16"], "t.isNil || length < 0", "t.isNil || length ≤ 0")
m(T, "mapType", "key and element swapped", ["C15"], ".ok (.map (key := k) (elem := v))", ".ok (.map (key := v) (elem := k))")
m(T, "mapType", "only the key is checked", ["C16"], "if k.isNil || v.isNil then .panic", "if k.isNil then .panic")
m(T, "channelType", "the default direction is receive", ["C15"], "let d := if d = 0 then bothDir else d", "let d := if d = 0 then recvDir else d")
m(T, "channelType", "invalid directions are accepted", ["C16"], "t.isNil || d &&& ~~~bothDir ≠ 0", "t.isNil")
m(T, "funcTypeFromSig", "the first instead of the last argument is checked", ["C16"], "match sig.args.getLast? with", "match sig.args.head? with")
m(T, "funcTypeFromSig", "results are not checked", ["C16"], "else if sig.results.any (·.type.isNil) then .panic\n", "")
m(T, "basicType", "unsafe pointers panic", ["C15", "C16"], "if k = .unsafePointer then .ok unsafePointerType\n  else if", "if")
m(T, "newPackage", "the name is the whole path", ["C46"], "{ name := pathBase importPath, importPath }", "{ name := importPath, importPath }")
m(T, "Symbol.string", "always with a dot", ["C33"], "if s.package.name ≠ [] then s.package.name ++ b! \".\" ++ s.name else s.name", "s.package.name ++ b! \".\" ++ s.name")
m(T, "TypeName.key", "the key of a map is its element", ["C15"], "  | .map _ k => .ok k\n", "  | .map k _ => .ok k\n")
m(T, "TypeName.len", "0 for types without length", ["C15"], "| _ => .ok (-1)", "| _ => .ok 0")
m(T, "Signature.addArg", "prepends", ["C47"], "args := s.args ++ [⟨name, t⟩]", "args := ⟨name, t⟩ :: s.args")

G = "Model/GoPath.lean"
m(G, "pathBase", "trailing slashes are not removed", ["C27"], "let stripped := (p.reverse.dropWhile (· == slash)).reverse", "let stripped := p")

R = "Model/Render.lean"
m(R, "basicText", "rune for uint32", ["C17"], "else if k = .int32 then b! \"rune\"\n  else k.kindString\n", "else if k = .uint32 then b! \"rune\"\n  else k.kindString\n")
m(R, "symbolText", "separator missing", ["C17"], "s.package.name ++ b! \".\" else []) ++ s.name", "s.package.name else []) ++ s.name")
m(R, "tagText", "always in backquotes", ["C19"], "if canBackquote tag then b! \"`\" ++ tag ++ b! \"`\" else quote tbl tag", "b! \"`\" ++ tag ++ b! \"`\"")
m(R, "tagText", "the tag is not quoted", ["C19"], "if canBackquote tag then b! \"`\" ++ tag ++ b! \"`\" else quote tbl tag", "tag")
m(R, "paramName", "parameters without name are left out in named lists", ["C17"], "name ++ b! \" \" else b! \"_ \"", "name ++ b! \" \" else []")
m(R, "typeNameToBuffer", "the arrow of receive channels on the wrong side", ["C17"], "if d = recvDir then b! \"<-\"", "if d = sendDir then b! \"<-\"")
m(R, "typeNameToBuffer", "map key and element swapped", ["C17"], "pure (b! \"map[\" ++ a ++ b! \"]\" ++ b)", "pure (b! \"map[\" ++ b ++ b! \"]\" ++ a)")
m(R, "fieldsToBuffer", "fields separated by commas", ["C17"], "    let b ← fieldsToBuffer tbl (i + 1) l\n    pure ((if i > 0 then b! \"; \" else [])", "    let b ← fieldsToBuffer tbl (i + 1) l\n    pure ((if i > 0 then b! \", \" else [])")
m(R, "signatureToBuffer", "several results without parentheses", ["C17"], "let paren := decide (results.length > 1) || anyNamed results", "let paren := anyNamed results")
m(R, "signatureToBuffer", "one named result without parentheses", ["C17"], "let paren := decide (results.length > 1) || anyNamed results", "let paren := decide (results.length > 1)")
m(R, "argsToBuffer", "the first argument is the variadic one", ["C17"], "if variadic && i == n - 1 then", "if variadic && i == 0 then")
m(R, "argsToBuffer", "variadic arguments shown with their slice type", ["C17"], "Outcome.bind (elemToBuffer tbl t) fun a", "Outcome.bind (typeNameToBuffer tbl t) fun a")
m(R, "TypeName.string", "uint8 not shown as byte like in typeNameToBuffer", ["C12", "C20"], ".ok (if k = .uint8 then b! \"byte\" else if k = .int32", ".ok (if k = .int32")

Q = "Model/Quote.lean"
m(Q, "escapeRune", "quotes are not escaped", ["C19"], "if r = 34 ∨ r = 92 then", "if r = 92 then")
m(Q, "escapeRune", "two digits for runes below 0x100 only below 0x20", ["C19"], "[92, 117, lowerHex (r / 4096 % 16),", "[92, 117, lowerHex (r / 65536 % 16),")
m(Q, "quoteLoop", "invalid bytes are replaced by the error rune", ["C19"], "if width = 1 ∧ r = runeError then", "if false then")
m(Q, "canBackquoteLoop", "backquotes are accepted", ["C19"], "∨ r = 96 ∨ r = 0x7F", "∨ r = 0x7F")
m(Q, "canBackquoteLoop", "carriage returns are accepted", ["C19"], "(r < 32 ∧ r ≠ 9)", "(r < 32 ∧ r ≠ 9 ∧ r ≠ 13)")

N = "Model/Names.lean"
m(N, "unexport", "the rest of the name is lower-cased away", ["C22"], ".ok (encodeRune (u.toLower (decodeRune s).1) ++ s.drop (decodeRune s).2)", ".ok (encodeRune (u.toLower (decodeRune s).1) ++ s.drop 1)")
m(N, "export'", "X is not put in front", ["C21"], "    else .ok (b! \"X\" ++ s)\n", "    else .ok s\n")
m(N, "export'", "the underscore is kept", ["C21"], ".ok (b! \"X\" ++ s.drop (decodeRune s).2)", ".ok (b! \"X\" ++ s)")
m(N, "export'", "no check of invalid encodings", ["C21"], "  else if (decodeRune s).1 = runeError then .panic\n  else if u.isUpper", "  else if u.isUpper")

GT = "Model/GoTypes.lean"
m(GT, "basicForGoType", "uint8 becomes int8", ["C23"], "| .uint8 => basicType .uint8", "| .uint8 => basicType .int8")
m(GT, "typeNameForGoType", "send and receive channels swapped", ["C23"], "| .sendOnly => do channelType (← typeNameForGoType e) sendDir", "| .sendOnly => do channelType (← typeNameForGoType e) recvDir")
m(GT, "fieldsForGoType", "embedded fields keep their name", ["C23"], "if !anonymous then n else []", "n")
m(GT, "recvArgForGoType", "interface receivers are prepended like others", ["C23"], "  | .concrete n t => do\n    let t ← typeNameForGoType t\n    pure [⟨n, t⟩]", "  | .concrete _ _ => .ok []")
m(GT, "throughPointer", "pointers are not removed", ["C25"], "if k = .ptr then t.elem else .ok t", ".ok t")
m(GT, "symbolForGoObject", "methods give plain symbols", ["C25"], "  | .func _ name (some recv) => methodRefForGoObject recv name\n  | _ => do", "  | _ => do")
m(GT, "packageForGoType", "name and path swapped", ["C23", "C25"], ".ok { name := p.name, importPath := p.path }", ".ok { name := p.path, importPath := p.name }")

RF = "Model/Reflect.lean"
m(RF, "typeNameForReflectType", "named basic types lose their name", ["C24"], "if kind.isBasic && pkgPath == [] then basicType kind", "if kind.isBasic then basicType kind")
m(RF, "typeNameForReflectType", "the length of arrays is lost", ["C24"], "| .array e n => do arrayType (← typeNameForReflectType e) n", "| .array e _ => do arrayType (← typeNameForReflectType e) 0")
m(RF, "fieldsForReflectType", "tags are lost", ["C24"], "pure (⟨n, t, tag⟩ :: r)", "pure (⟨n, t, []⟩ :: r)")

X = "Model/Text.lean"
m(X, "writeComment", "only the first line is commented", ["C26"], "(splitOn newline comment).flatMap fun line => b! \"// \" ++ line ++ b! \"\\n\"", "b! \"// \" ++ comment ++ b! \"\\n\"")
m(X, "writeComment", "empty lines are dropped", ["C26"], "(splitOn newline comment).flatMap", "((splitOn newline comment).filter (· ≠ [])).flatMap")

F = "Model/File.lean"
m(F, "GoFile.text", "file comment directly before the package clause", ["C29"], "(if f.fileComment ≠ [] then b! \"\\n\" else [])", "[]")
m(F, "GoFile.text", "no import statements", ["C29"], "++ (f.imports.importSpecs.map (ImportSpec.statement env.isPrint)).flatten ++ body", "++ body")
m(F, "ImportSpec.statement", "the path is not quoted", ["C29"], "else b! \"import \" ++ quote tbl s.importPath ++ b! \"\\n\"", "else b! \"import \" ++ s.importPath ++ b! \"\\n\"")
m(F, "GoFile.packageClause", "the canonical import path is left out", ["C29"], "if f.canonicalImportPath ≠ [] then", "if false then")
m(F, "newGoFile", "paths are accepted as file names", ["C27"], "if pathBase fileName ≠ fileName then .panic\n  else if", "if")
m(F, "newGoFile", "other suffixes are accepted", ["C27"], "  else if filepathExt fileName ≠ b! \".go\" then .panic\n", "")
m(F, "addElement", "elements are prepended", ["C28"], "elements := file.elements ++ [e]", "elements := e :: file.elements")
m(F, "FileElem.setParent", "functions get no parent", ["C28"], "{ s with parent := some f }) h.funcs [p]", "{ s with parent := s.parent }) h.funcs [p]")
m(F, "setParents", "only the first spec gets the parent", ["C28"], "| some a => setParents set (upd m p (set a)) ps", "| some a => .ok (upd m p (set a))")
m(F, "addValue", "var instead of const", ["C48"], "{ kind, specs := [s] }", "{ kind := .var, specs := [s] }")
m(F, "declAddType", "replaces the list", ["C48"], "types := D.types ++ [t]", "types := [t]")
m(F, "allocFields", "tags are lost", ["C39"], "{ name, type, tag, parent := some parent }", "{ name, type, tag := [], parent := some parent }")
m(F, "allocFields", "fields have no parent", ["C39"], "{ name, type, tag, parent := some parent }", "{ name, type, tag }")
m(F, "allocMethods", "methods have no parent", ["C39"], "signature := m.signature, parent := some parent }", "signature := m.signature }")
m(F, "newTypeSpec", "methods before embeds", ["C39"], "", "", 0)
m(F, "FieldSpec.text", "tag before the type", ["C40"], "(if f.name ≠ [] then f.name ++ b! \" \" else []) ++ t\n    ++ fieldTagText env.isPrint f.tag ++ b! \"\\n\")", "(if f.name ≠ [] then f.name ++ b! \" \" else [])\n    ++ fieldTagText env.isPrint f.tag ++ t ++ b! \"\\n\")")
m(F, "fieldTagText", "no space before the tag", ["C40"], "if tag ≠ [] then b! \" \" ++ tagText tbl tag else []", "if tag ≠ [] then tagText tbl tag else []")
m(F, "TypeDecl.text", "groups lose the comments of their specs", ["C41"], "t.text env h fuel true) d.types", "t.text env h fuel false) d.types")
m(F, "TypeDecl.text", "a single spec with declaration comment is not grouped", ["C41"], "if d.types.length > 1 ∨ d.comment ≠ [] then", "if d.types.length > 1 then")
m(F, "ValueDecl.text", "only the first spec is written", ["C41"], "c.text env h true) d.specs", "c.text env h true) (d.specs.take 1)")
m(F, "ValueSpec.text", "names separated without comma", ["C41"], "++ joinWith (b! \", \") c.names", "++ joinWith (b! \" \") c.names")
m(F, "TypeSpec.text", "the = of an alias is left out", ["C39"], "(if t.isAlias then b! \"= \" else [])", "[]")
m(F, "writeUnderlying", "interface bodies are written for structs", ["C39"], "f.text env h (writeUnderlying env h fuel)) t.structBody\n      pure (b! \" struct {\\n\"", "f.text env h (writeUnderlying env h fuel)) t.structBody\n      pure (b! \" interface {\\n\"")
m(F, "ReceiverSpec.text", "pointer star missing", ["C45"], "(if r.isPointer then b! \"*\" else [])", "[]")
m(F, "FuncSpec.text", "name before the receiver", ["C45"], "        | some r => r.text)\n    ++ f.name ++ sig", "        | some _ => [])\n    ++ f.name ++ sig")
m(F, "newReceiverForType", "pointers to pointers are accepted", ["C45"], "      if ke = .named then do", "      if ke = .named ∨ ke = .ptr then do")
m(F, "newPointerReceiverForType", "unnamed specs are accepted", ["C45"], "if t.name = [] then .panic else pure { name, type := t.name, isPointer := true }", "pure { name, type := t.name, isPointer := true }")
m(F, "FuncSpec.toTypeName", "the receiver is appended", ["C45"], "args := ⟨r.name, rt⟩ :: f.signature.args }", "args := f.signature.args ++ [⟨r.name, rt⟩] }", 1)
m(F, "FuncSpec.toTypeName", "pointer receivers lose the pointer", ["C45"], "(if r.isPointer then pointerType named else .ok named)", "(.ok named)")

C = "Model/Code.lean"
m(C, "qualifyArg", "symbols in code are not registered", ["C33"], "  | .symbol s => do\n    let s' ← ensureImported s\n    pure (.symbol s')\n  | .symbolPtr", "  | .symbol s => pure (.symbol s)\n  | .symbolPtr")
m(C, "qualifyArg", "signatures are left as they are", ["C33"], "  | .sig s => do\n    let s' ← ensureAllTypesImported s\n    pure (.sigPtr s')", "  | .sig s => do\n    let _ ← ensureAllTypesImported s\n    pure (.sigPtr s)")
m(C, "qualifyArg", "packages keep their name", ["C33"], "  | .package a => do\n    let p ← registerPackage a\n    if p ≠ a.name then", "  | .package a => do\n    let p ← registerPackage a\n    if p = a.name then")
m(C, "qualifySymOrRef", "the method name is lost", ["C33"], "pure (.mrefPtr { type := s', method := m.method })", "pure (.mrefPtr { type := s', method := m.type.name })")
m(C, "qualifyArgList", "stops after the first argument", ["C50"], "      match qualifyArgList h l i' with\n      | (o, l', i'') => (o, a' :: l', i'')", "      (.ok (), a' :: l, i')")
m(C, "CodeBlock.println", "no newline", ["C32"], "  cb.printlnf (b! \"%s\") [.str text] h", "  cb.printf (b! \"%s\") [.str text] h")
m(C, "CodeBlock.print", "the text is taken as format", ["C32"], "  cb.printf (b! \"%s\") [.str text] h", "  cb.printf text [] h")
m(C, "CodeBlock.addCode", "code is prepended", ["C32"], "CodeBlock := cb ++ code", "CodeBlock := code ++ cb")
m(C, "CodeBlock.printf", "the line is prepended", ["C32"], "(cb ++ [.line format (h.allocArgs args).1], (h.allocArgs args).2)", "(.line format (h.allocArgs args).1 :: cb, (h.allocArgs args).2)")
m(C, "CodeElem.text", "template errors are ignored", ["C32"], "    | some s => pure s\n    | none => .panic", "    | some s => pure s\n    | none => pure []")
m(C, "concatText", "texts in reverse order", ["C32", "C41"], "    pure (x ++ y)\n\n/-- `CodeBlock.writeTo`", "    pure (y ++ x)\n\n/-- `CodeBlock.writeTo`")

O = "Model/Output.lean"
m(O, "emit", "the unformatted text is written", ["C36"], "| none => (some (.format text), es)", "| none => (none, es ++ [.write writer text none])")
m(O, "emit", "write errors are ignored", ["C35"], "| some e => (some (.external e), es ++ [.write writer formatted (some e)])", "| some e => (none, es ++ [.write writer formatted (some e)])")
m(O, "writeAndClose", "not closed after a panic", ["C35"], "| (.panic, h', es') => (.panic, h', es' ++ [.close writer])", "| (.panic, h', es') => (.panic, h', es')")
m(O, "writeGoFiles", "continues after an error", ["C35"], "        | (.ok none, h', es'') => writeGoFiles env fuel w outFn ps h' es''\n", "        | (.ok _, h', es'') => writeGoFiles env fuel w outFn ps h' es''\n")
m(O, "writeGoFiles", "the package path is left out of the file's path", ["C35"], "outFn es (filepathJoin f.package.importPath f.name)", "outFn es f.name")
m(O, "fileSystemOpen", "directories are not made", ["C38"], "  match w.mkdirAnswer es dir with\n  | some e => (some e, es ++ [.mkdirAll dir (some e)])\n  | none => plainOpen w (es ++ [.mkdirAll dir none]) fullPath", "  if dir = [] then (none, es) else plainOpen w es fullPath")
m(O, "filepathClean", "inner .. is kept", ["C38"], "| top :: below => if top = b! \"..\" then e :: stack else below", "| _ :: _ => e :: stack")
m(O, "writeGoFilesToGoPath", "the test of the code corrected", ["C37"], "if paths.length ≠ 0 then (.ok (some .gopath), h, es)", "if paths.length = 0 then (.ok (some .gopath), h, es)")
B = "Model/Builders.lean"
m(B, "newValue", "only the first name is kept", ["C49"], "upd h.values h.next { kind, names }", "upd h.values h.next { kind, names := names.take 1 }")
m(B, "newValue", "the address is not used up", ["C49"], "upd h.values h.next { kind, names }, next := h.next + 1 }", "upd h.values h.next { kind, names }, next := h.next }")
m(B, "valueSetComment", "adds to the comment", ["C49"], "  let m ← modAt h.values p fun c => { c with comment }", "  let m ← modAt h.values p fun c => { c with comment := c.comment ++ comment }")
m(B, "valueSetType", "keeps a type that is set", ["C49"], "{ c with type := t }", "{ c with type := match c.type with | .nil => t | u => u }")
m(B, "valueSetInitializer", "a nil block does not remove the initializer", ["C49"], "{ c with init := b }", "{ c with init := b.or c.init }")
m(B, "CodeCall.exec", "Println prints without newline", ["C50"], "  | .println text => .ok (cb.println text h)", "  | .println text => .ok (cb.print text h)")
m(B, "CodeCall.exec", "AddCode replaces the block", ["C50"], "    pure (cb.addCode code, h)", "    pure (code, h)")
m(B, "CodeCall.exec", "Printlnf forgets the arguments", ["C50"], "  | .printlnf format args => .ok (cb.printlnf format args h)", "  | .printlnf format _ => .ok (cb.printlnf format [] h)")
m(B, "valueInitialize", "the format is taken as text", ["C49"], "newBlock h (some (.printf format args))", "newBlock h (some (if args.isEmpty then .print format else .printf format args))")
m(B, "newValueDecl", "always const", ["C48"], "upd h.valueDecls h.next { kind, specs }", "upd h.valueDecls h.next { kind := .const, specs }")
m(B, "newTypeDecl", "without the given types", ["C48"], "upd h.typeDecls h.next { types }", "upd h.typeDecls h.next { types := types.drop 1 }")
m(B, "fieldSetTag", "sets the comment", ["C49"], "fun f => { f with tag }", "fun f => { f with comment := tag }")
m(B, "newField", "name and type only if the name is not empty", ["C49"], "upd h.fields h.next { name, type := t }", "upd h.fields h.next { name, type := if name = [] then .nil else t }")
m(B, "embedSetComment", "removes the parent", ["C49"], "fun e => { e with comment }", "fun e => { comment, type := ⟨⟨[], []⟩, e.type.name⟩ }")
m(B, "newInterfaceMethod", "variadic", ["C47"], "{ name, signature := ⟨[], [], false⟩ }, next", "{ name, signature := ⟨[], [], true⟩ }, next")
m(B, "SigCall.exec", "AddResult adds an argument", ["C47"], "| .addResult name t => s.addResult name t", "| .addResult name t => s.addArg name t")
m(B, "SigCall.exec", "SetVariadic can only turn it on", ["C47"], "| .setVariadic b => s.setVariadic b", "| .setVariadic b => s.setVariadic (s.isVariadic || b)")
m(B, "methodSigCall", "a new signature each time", ["C47"], "{ m with signature := c.exec m.signature }", "{ m with signature := c.exec ⟨[], [], false⟩ }")
m(B, "newFunc", "the receiver is dropped", ["C50", "C47"], "upd h.funcs h.next { name, receiver }", "upd h.funcs h.next { name }")
m(B, "funcSetComment", "clears the code", ["C50"], "modAt h.funcs p fun f => { f with comment }", "modAt h.funcs p fun f => { f with comment, code := [] }")
m(B, "funcSigCall", "clears the comment", ["C50", "C49"], "{ f with signature := c.exec f.signature }", "{ f with signature := c.exec f.signature, comment := [] }")
m(B, "funcCodeCall", "new code replaces the old", ["C50"], "  let r ← c.exec f.code h\n", "  let r ← c.exec [] h\n")
m(B, "GoFile.numElements", "off by one", ["C48"], "Nat := f.elements.length", "Nat := f.elements.length - 1")
m(B, "GoFile.elementAt", "counts from the end", ["C48"], "match f.elements[k]? with", "match f.elements.reverse[k]? with")
m(B, "allocFile", "the package name is taken from the path", ["C48"], "let f ← newGoFile fileName packagePath packageName", "let f ← newGoFile fileName packagePath (pathBase packagePath)")
m(B, "GoFile.assign", "comments of file and package swapped", ["C49"], "  | .fileComment => { f with fileComment := s }\n  | .packageComment => { f with packageComment := s }", "  | .fileComment => { f with packageComment := s }\n  | .packageComment => { f with fileComment := s }")

MEM = "Model/Memory.lean"
m(MEM, "orCopy", "the slice is changed in place", ["C13"], "  | none => copySlice s\n", "  | none => pure s\n")
m(MEM, "rangeCopy", "always a new slice", ["C13"], "  | none => pure s\n  | some ret => pure ret\n\n/-- `qualifySymbols`", "  | none => copySlice s\n  | some ret => pure ret\n\n/-- `qualifySymbols`")
m(MEM, "rangeLoop", "only the first change is stored", ["C13"], "      storeElem ret idx y\n      rangeLoop f s n (idx + 1) (some ret)", "      storeElem ret idx y\n      pure (some ret)")
m(MEM, "qualifySignatureM", "results are taken from the arguments", ["C13"], "let results ← qualifyArgsM q s.results", "let results ← qualifyArgsM q s.args")
m(MEM, "qualifySignatureM", "the signature is changed in place", ["C13"], "then alloc (.sig ⟨args, results, s.isVariadic⟩)", "then do store p (.sig ⟨args, results, s.isVariadic⟩); pure p")
m(MEM, "qualifySignatureM", "always a new signature", ["C13"], "if args ≠ s.args ∨ results ≠ s.results then alloc", "if args ≠ s.args ∨ results ≠ s.results ∨ True then alloc")
m(MEM, "qualifySignatureM", "variadic is lost", ["C13"], "alloc (.sig ⟨args, results, s.isVariadic⟩)", "alloc (.sig ⟨args, results, false⟩)")
m(MEM, "qualifyMethodsM", "writes through a pointer to the element (store into the slice)", ["C13"], "        pure (some (.method name s))", "        storeElem methods 0 (.method name s)\n        pure (some (.method name s))")
m(MEM, "qualifyMethodsM", "a change of the signature is not noticed", ["C13"], "      if ns ≠ m then do", "      if ns ≠ m ∧ name = [] then do")
m(MEM, "qualifyTypeM", "the symbol of a named type is changed in place", ["C13"], "          let q ← alloc (.named nsym)\n          pure (.named q)", "          store p (.named nsym)\n          pure (.named p)")
m(MEM, "qualifyTypeM", "named types are always made anew", ["C13"], "        if nsym ≠ sym then do", "        if nsym ≠ sym ∨ True then do")
m(MEM, "qualifyTypeM", "key of a map stays", ["C13"], "pure (.map nelem nkey)", "pure (.map nelem key)")
m(MEM, "qualifyTypeM", "fields of a struct are not copied first and changed in place", ["C13"], "          let q ← alloc (.struct nfields)\n          pure (.struct q)", "          store p (.struct nfields)\n          pure (.struct p)")
m(MEM, "qualifyTypeM", "an interface of which only the methods change stays", ["C13"], "if nembeds ≠ embeds ∨ nmethods ≠ methods then do", "if nembeds ≠ embeds then do")

D = "Model/Template.lean"
m(D, "qualifySpecIn", "the copy is made also without need", ["C42"], "  if newPkg ≠ pkg.name then pure (.specCopy r newPkg, true) else pure (orig, false)", "  pure (.specCopy r newPkg, true)")
m(D, "qualifyConverted", "types are not replaced", ["C42"], "  if c && acc.typeName then pure (.iface acc (.typeName t'), true) else pure (orig, false)", "  if c && acc.typeName then pure (.iface acc (.typeName t), true) else pure (orig, false)")
m(D, "qualifyObject", "objects are not replaced", ["C42"], "    if s' ≠ s ∧ acc.symbol then pure (.iface acc (.symbol s'), true) else pure (orig, false)", "    if s' ≠ s ∧ acc.symbol then pure (.iface acc (.symbol s), true) else pure (orig, false)")
m(D, "qualifyObject", "the method is lost", ["C42"], "{ type := s', method := m.method })), true)", "{ type := s', method := s'.name })), true)")
m(D, "qualifyData", "packages in interfaces keep their name", ["C42"], "        pure (.iface acc (.package { name := n, importPath := p.importPath }), true)", "        pure (.iface acc (.package { name := p.name, importPath := p.importPath }), true)")
m(D, "qualifyData", "symbols are qualified without registering", ["C42"], "  | .symbol s => do\n    let s' ← ensureImported s\n    pure (.symbol s', decide (s' ≠ s))", "  | .symbol s => do\n    let s' ← qualifyOnly s\n    pure (.symbol s', decide (s' ≠ s))")
m(D, "qualifyData", "a change behind a pointer is not reported", ["C42"], "    pure (.ptr (if c then v'.inIface else v'), c)", "    pure (.ptr (if c then v'.inIface else v'), false)")
m(D, "qualifyData", "elements of slices are left alone", ["C42"], "    let (vs', c) ← qualifyDataElems h true true false vs\n    pure (.slice vs', c)", "    pure (.slice vs, false)")
m(D, "qualifyData", "a map is rebuilt with old keys", ["C42"], "es'.foldl (fun m e => setMapIndex m e.1 e.2) []", "(es.zip es').foldl (fun m e => setMapIndex m e.1.1 e.2.2) []")
m(D, "qualifyDataFields", "the field after a changed one stays", ["C42"], "        pure ((exported, v') :: fs', c')", "        pure ((exported, if changed then v else v') :: fs', c')")
m(D, "qualifyDataElems", "reversed", ["C42"], "      pure (v' :: vs', c')\n", "      pure (vs' ++ [v'], c')\n")
m(D, "qualifyDataEntries", "values are not qualified", ["C42"], "    let (v', cv) ← qualifyData h false v\n    if", "    let (v', cv) : TVal × Bool := (v, false)\n    if")
m(D, "setMapIndex", "a second entry for the same key is dropped", ["C43", "C42"], "then (e.1, v) :: m else", "then e :: m else")
m(D, "qualifyTemplateData", "the data itself is returned", ["C42"], "  | .iface _ v => pure v\n  | v => pure v", "  | _ => pure data")

m(C, "CodeElem.qualify", "template data is qualified but not stored", ["C42", "C31"], "upd h.templs p { t with data := d }", "upd h.templs p t")
m(C, "CodeElem.qualify", "the arguments are qualified but not stored", ["C33", "C31"], "| (o, l', i') => (o, { h with args := upd h.args p l' }, i')", "| (o, _, i') => (o, h, i')")
m(C, "qualifyCode", "only the first line", ["C50"], "QM.forEach CodeElem.qualify cb", "QM.forEach CodeElem.qualify (cb.take 1)")
m(C, "codeText", "lines in reverse", ["C32"], "concatText (CodeElem.text env h) cb", "concatText (CodeElem.text env h) cb.reverse")
m(C, "CodeBlock.printlnf", "newline first", ["C32"], 'cb.printf (format ++ b! "\\n") args h', 'cb.printf (b! "\\n" ++ format) args h')
m(C, "CodeBlock.renderCode", "the template is put first", ["C32"], "(cb ++ [.templ h.next],", "(.templ h.next :: cb,")

F = "Model/File.lean"
m(F, "IfaceElem.qualify", "embedded interfaces are not qualified", ["C31"], "upd h.embeds p r.1", "upd h.embeds p e")
m(F, "IfaceElem.qualify", "the signature of methods is not stored", ["C31"], "upd h.methods p r.1", "upd h.methods p m")
m(F, "qualifyField", "the type of a field is not stored", ["C31"], "{ f with type := .name t' } }", "{ f with type := .name t } }")
m(F, "qualifyField", "nested specs are left out", ["C31"], "  | .spec q => sub q\n", "  | .spec _ => QM.ret ()\n")
m(F, "qualifySpec", "the underlying type is not stored", ["C31"], "{ ts with underlying := u }", "{ ts with underlying := ts.underlying }")
m(F, "qualifySpec", "the methods are left out", ["C31"], "    QM.forEach IfaceElem.qualify ts.interfaceBody\n", "    QM.ret ()\n")
m(F, "qualifyTypeRef", "the type of a const or var is registered only", ["C31"], "fun t' => QM.ret (.name t')", "fun _ => QM.ret (.name t)")
m(F, "qualifyValue", "initializers are left out", ["C31"], "  | some b => QM.bind (QM.read (·.blocks) b) qualifyCode\n", "  | some _ => QM.ret ()\n")
m(F, "qualifyFunc", "code is left out", ["C31", "C50"], "  qualifyCode f.code\n", "  QM.ret ()\n")
m(F, "qualifyFunc", "the signature is registered only", ["C31", "C50"], "{ f with signature := sig }", "{ f with signature := f.signature }")
m(F, "FileElem.qualify", "only the first spec of a declaration", ["C31"], "    QM.forEach (qualifyValue fuel) d.specs\n", "    QM.forEach (qualifyValue fuel) (d.specs.take 1)\n")
m(F, "FileElem.qualify", "types are left out", ["C31"], "    QM.forEach (qualifySpec fuel) d.types\n", "    QM.ret ()\n")
m(F, "ValueKind.keyword", "const for both", ["C41"], '  | .var => b! "var"', '  | .var => b! "const"')
m(F, "InterfaceEmbed.text", "without package", ["C39"], "writeComment e.comment ++ e.type.string", "writeComment e.comment ++ e.type.name")
m(F, "InterfaceMethod.text", "without comment", ["C39"], "pure (writeComment m.comment ++ m.name ++ s ++ b! \"\\n\")", "pure (m.name ++ s ++ b! \"\\n\")")
m(F, "underlyingText", "methods before embeds", ["C39"], "(a ++ b) ++ b! \"}\\n\")", "(b ++ a) ++ b! \"}\\n\")")
m(F, "fieldTypesText", "tags are left out", ["C39", "C40"], "(if name ≠ [] then name ++ b! \" \" else []) ++ a ++ fieldTagText env.isPrint tag ++ b! \"\\n\"\n      ++ b)", "(if name ≠ [] then name ++ b! \" \" else []) ++ a ++ b! \"\\n\"\n      ++ b)")
m(F, "fieldTypeText", "specs with a name are written in full", ["C39"], "    if t.name = [] then sub t\n", "    if t.name = [] ∨ t.structBody ≠ [] then sub t\n")
m(F, "qualifyFile", "the imports are not stored", ["C31"], "(o, { h' with files := upd h'.files p { f with imports := i' } })", "(o, h')")
m(F, "qualifyFile", "the last element is left out", ["C31"], "match QM.forEach (FileElem.qualify fuel) f.elements h f.imports with", "match QM.forEach (FileElem.qualify fuel) f.elements.dropLast h f.imports with")
m(F, "renderFile", "writes what was there before qualification", ["C31"], "((deref h'.files p).bind fun f => f.text env h' fuel, h')", "((deref h'.files p).bind fun f => f.text env h fuel, h')")
m(F, "addType", "the type is not put into the declaration", ["C48"], "{ types := [t] }\n", "{ types := [] }\n")
m(F, "declAddValue", "puts the spec first", ["C48"], "{ D with specs := D.specs ++ [s] }", "{ D with specs := s :: D.specs }")
m(F, "allocEmbeds", "the package of embedded interfaces is lost", ["C39"], "{ type := e, parent := some parent }", "{ type := ⟨⟨[], []⟩, e.name⟩, parent := some parent }")
m(F, "newTypeSpec", "a spec without name loses its body", ["C39"], "structBody := t.structBody, interfaceBody := t.interfaceBody }", "structBody := t.structBody }")
m(F, "newTypeSpec", "methods before embeds", ["C39"], "interfaceBody := r.1 ++ q.1", "interfaceBody := q.1 ++ r.1")
m(F, "newTypeAlias", "no alias", ["C39"], "{ ts with isAlias := true }", "{ ts with isAlias := false }")
m(F, "collectFields", "tags are lost", ["C39"], "pure (⟨f.name, t, f.tag⟩ :: r.1, r.2)", "pure (⟨f.name, t, []⟩ :: r.1, r.2)")
m(F, "collectFields", "parents are not set", ["C39"], "{ f with parent := some parent } }\n    let t", "{ f with parent := f.parent } }\n    let t")
m(F, "newStructTypeSpec", "the body is reversed", ["C39"], "underlying := structType r.1, structBody := fields }", "underlying := structType r.1, structBody := fields.reverse }")
m(F, "collectElems", "methods are counted as embeds", ["C39"], "pure (r.1, ⟨m.name, m.signature⟩ :: r.2.1, r.2.2)", "pure (⟨⟨[], []⟩, m.name⟩ :: r.1, r.2.1, r.2.2)")
m(F, "newInterfaceTypeSpec", "the parent is the next spec", ["C39"], "collectElems h.next { h with next", "collectElems (h.next + 1) { h with next")
m(F, "newReceiver", "the empty type is accepted", ["C45"], "if rcvrType = [] then .panic else .ok { name, type := rcvrType }", ".ok { name, type := rcvrType }")
m(F, "newPointerReceiver", "no pointer", ["C45"], "{ name, type := rcvrType, isPointer := true }\n\n/-- `NewPointerReceiverForType`", "{ name, type := rcvrType }\n\n/-- `NewPointerReceiverForType`")
m(F, "InterfaceMethod.toTypeName", "without receiver", ["C45"], "funcTypeFromSig { m.signature with args := ⟨[], rt⟩ :: m.signature.args }", "(fun _ => funcTypeFromSig m.signature) rt")

X = "Model/Fmt.lean"
m(X, "MethodReference.string", "without type", ["C33"], 'm.type.string ++ b! "." ++ m.method', "m.method")
m(X, "ValueSpec.symbolAt", "always the first name", ["C28"], "match c.names[i]? with", "match c.names[i - i]? with")
m(X, "ValueSpec.toSymbol", "several names are accepted", ["C28"], "if c.names.length ≠ 1 then .panic else c.symbolAt h 0", "if c.names.length < 1 then .panic else c.symbolAt h 0")
m(X, "ValueSpec.string", "without package", ["C28"], "      let s ← c.toSymbol h\n      pure s.string", "      let s ← c.toSymbol h\n      pure s.name")
m(X, "TypeSpec.toTypeName", "the underlying type", ["C28", "C39"], "    pure (namedType s)\n", "    pure (if s.name = [] then namedType s else t.underlying)\n")
m(X, "FuncSpec.toSymbol", "the receiver is ignored", ["C28"], "    | some r => pure (.method { type := { name := r.type, package := pkg }, method := f.name })\n", "    | some _ => pure (.symbol { name := f.name, package := pkg })\n")
m(X, "FuncSpec.string", "methods are written with package", ["C28"], "if f.parent = none ∨ f.receiver ≠ none then", "if f.parent = none then")
m(X, "InterfaceMethod.toMethodRef", "the name of the type instead of the method", ["C28"], "pure { type := s, method := m.name }", "pure { type := s, method := t.name }")
m(X, "Arg.shown", "packages are shown by their path", ["C33"], "| .package p | .packagePtr p => .str p.string", "| .package p | .packagePtr p => .str p.importPath")
m(X, "fmtVerb", "%s quotes", ["C32"], "if verb = 115 ∨ verb = 118 then some s ", "if verb = 118 then some s else if verb = 115 then some (quote tbl s) ")
m(X, "sprintf", "%% gives two", ["C32"], "(sprintf tbl rest args).map (37 :: ·)", "(sprintf tbl rest args).map fun s => 37 :: 37 :: s")

G = "Model/GoTypes.lean"
m(G, "embedsForGoType", "embedded types that are not named are skipped", ["C23"], "  | none :: _ => .panic\n", "  | none :: l => embedsForGoType l\n")
m(G, "typeNameForGoType", "key and element of maps swapped", ["C23"], "    mapType k e\n", "    mapType e k\n")
m(G, "typeNameForGoType", "send and receive swapped", ["C23"], "channelType (← typeNameForGoType e) sendDir\n", "channelType (← typeNameForGoType e) recvDir\n")
m(G, "signatureFromGoType", "the receiver is put last", ["C23"], "pure ⟨r ++ args, results, variadic⟩", "pure ⟨args ++ r, results, variadic⟩")
m(G, "methodsForGoType", "names are lost", ["C23"], "    let r ← methodsForGoType l\n    pure (⟨n, s⟩ :: r)", "    let r ← methodsForGoType l\n    pure (⟨[], s⟩ :: r)")
m(G, "argsTypesForGoType", "names are lost", ["C23"], "    let r ← argsTypesForGoType l\n    pure (⟨n, t⟩ :: r)", "    let r ← argsTypesForGoType l\n    pure (⟨[], t⟩ :: r)")
m(G, "methodRefForGoObject", "the name of the type as method", ["C25"], "pure (.method { type := s, method := name })", "pure (.method { type := s, method := s.name })")
R = "Model/Reflect.lean"
m(R, "storeResults", "the code corrected: results are results", ["C24"], "    let args ← storeResults args 0 outs\n    pure ⟨args, List.replicate outs.length ⟨[], .nil⟩, variadic⟩", "    let rs ← argsForReflectType outs\n    pure ⟨args, rs, variadic⟩")
m(R, "typeNameForReflectType", "the direction of channels is lost", ["C24"], "channelType (← typeNameForReflectType e) d", "channelType (← typeNameForReflectType e) bothDir")
m(R, "methodsForReflectType", "only the first method", ["C24"], "    let r ← methodsForReflectType l\n    pure (⟨n, s⟩ :: r)", "    let _ ← methodsForReflectType l\n    pure [⟨n, s⟩]")
m(O, "filepathJoin", "without cleaning", ["C38"], "if a ≠ [] then filepathClean (a ++ [slash] ++ b)", "if a ≠ [] then a ++ [slash] ++ b")
m(O, "filepathDir", "the whole path", ["C38"], "filepathClean ((p.reverse.dropWhile (· != slash)).reverse)", "filepathClean p")
m(O, "writeGoFile", "written also after a panic", ["C36", "C35"], "  | (.panic, h') => (.panic, h', es)\n  | (.hang, h') => (.hang, h', es)\n\n/-- The function literal", "  | (.panic, h') => (.panic, h', es ++ [.write writer [] none])\n  | (.hang, h') => (.hang, h', es)\n\n/-- The function literal")
m(O, "plainOpen", "the error of open is ignored", ["C35"], "(w.openAnswer es path, es ++", "(none, es ++")
m(O, "writeGoFilesToFileSystem", "the root directory is ignored", ["C38"], "(fileSystemOpen w rootDir)", "(fileSystemOpen w [])")
I = "Model/Imports.lean"
m(I, "newImportsFor", "the own package is reserved by name", ["C03", "C04"], "{ pkgPath, importsByPath := [], pathsByName := [] }", "{ pkgPath, importsByPath := [], pathsByName := [(pathBase pkgPath, pkgPath)] }")
m(I, "registerImportForPackage", "the name is taken from the path", ["C14", "C04"], "registerImport pkg.importPath pkg.name", "registerImport pkg.importPath []")
m(I, "prefixFor", "registers", ["C05"], "prefixForPackage importPath [] false", "prefixForPackage importPath [] true")
m(I, "qualifyOnly", "registers", ["C05"], "qualify sym false", "qualify sym true")
m(I, "qualifySymbols", "a change in the tail is not noticed", ["C10", "C13"], "decide (nt ≠ s) || c)", "decide (nt ≠ s))")
m(I, "qualifyMethods", "a change in the tail is not noticed", ["C10", "C13"], "pure (⟨name, ns⟩ :: rest, c || cs)", "pure (⟨name, ns⟩ :: rest, c)")
m(I, "qualifyTypeOnly", "registers", ["C05"], "let (t, _) ← qualifyType false t", "let (t, _) ← qualifyType true t")
m(I, "qualifySignatureOnly", "registers", ["C05"], "let (s, _) ← qualifySignature false s", "let (s, _) ← qualifySignature true s")
m(I, "goStringLt", "by length first", ["C06"], "  | a :: s, b :: t => a < b || (a == b && goStringLt s t)", "  | a :: s, b :: t => if s.length < t.length then true else a < b || (a == b && goStringLt s t)")
m(D, "qualifyData", "what a pointer to an interface holds is taken out also if nothing changes", ["C42"], "if c then v'.inIface else v'", "v'.inIface")
m(D, "qualifyData", "a pointer to an interface keeps the interface", ["C42"], "if c then v'.inIface else v'", "v'")
m(D, "qualifyDataElems", "the type of pointers to interfaces is not checked", ["C42"], "(!changed && c && !sliceable) || (c && v.ifacePtr)", "(!changed && c && !sliceable)")
DM = "Model/DataMemory.lean"
m(DM, "Cell.at", "pointers to elements of slices point to the first element", ["C51"], "  | .array l, k :: ks => match l[k]? with\n    | some (.data v)", "  | .array l, k :: ks => match l[k - k]? with\n    | some (.data v)")
m(DM, "buildType", "key and element of maps swapped", ["C51"], "    pure (.map t k)", "    pure (.map k t)")
m(DM, "buildSig", "converted signatures are never variadic", ["C51"], "    pure ⟨⟨a, 0, l.length⟩, ⟨b, 0, l'.length⟩, v⟩", "    pure ⟨⟨a, 0, l.length⟩, ⟨b, 0, l'.length⟩, false⟩")
m(DM, "buildFields", "tags are lost", ["C51"], "    pure (.field n t tag :: l)", "    pure (.field n t [] :: l)")
m(DM, "setPart", "the store goes to the next element", ["C51"], "store a (shape.cell (l.set idx v)) else panic", "store a (shape.cell (l.set (idx + 1) v)) else panic")
m(DM, "setRes", "a value of another type is stored", ["C51"], "if r.retyped then panic else setPart", "setPart")
m(DM, "copyParts", "the earlier elements are not copied", ["C51"], "    setPart shape a idx v\n    copyParts", "    setPart shape a idx (if idx = 0 then .scalar 0 else v)\n    copyParts")
m(DM, "partsLoop", "unexported fields are read without address", ["C51"], "    if shape.hides idx && !addr then panic\n    else do\n      let v ← get idx\n      let r ← q v\n      match new", "    do\n      let v ← get idx\n      let r ← q v\n      match new")
m(DM, "partsLoop", "elements after the first change are only copied", ["C51"], "        setRes shape a idx r\n        partsLoop shape addr get q total n (idx + 1) (some a)\n      | none", "        setPart shape a idx v\n        partsLoop shape addr get q total n (idx + 1) (some a)\n      | none")
m(DM, "partsLoop", "one element too few is copied", ["C51"], "copyParts shape get a idx 0", "copyParts shape get a (idx - 1) 0")
m(DM, "DVal.keyEq", "pointers are compared without path", ["C52"], "a == b && l == l'", "a == b")
m(DM, "DVal.keyEq", "interfaces with different contents are equal", ["C52"], "  | .iface _ a, .iface _ b => a.keyEq b", "  | .iface _ _, .iface _ _ => true")
m(DM, "setEntry", "the entry is added even if the key is there", ["C51", "C52"], "if e.1.keyEq k then (e.1, v) :: m else e :: setEntry m k v", "e :: setEntry m k v")
m(DM, "setEntry", "the first entry for a key stays", ["C52"], "if e.1.keyEq k then (e.1, v) :: m else", "if e.1.keyEq k then e :: m else")
m(DM, "entriesLoop", "entries before the first change are lost", ["C51"], "        copyEntries a seen\n", "")
m(DM, "entriesLoop", "only changes of keys count", ["C51"], "if rk.changed || rv.changed then do", "if rk.changed then do")
m(DM, "setMapRes", "keys are not replaced", ["C51"], "setMapIndexM a k.val v.val", "setMapIndexM a v.val k.val")
m(DM, "qualifyConvertedM", "the variable's type is not considered", ["C51"], "if t' ≠ t ∧ acc.typeName then pure (replaced", "if t' ≠ t then pure (replaced")
m(DM, "qualifyObjectM", "methods are not replaced", ["C51"], "if s' ≠ m.type ∧ acc.mref then do\n      let a", "if s' ≠ m.type ∧ acc.mref ∧ m.method = [] then do\n      let a")
m(DM, "qualifySpecInM", "specs of files are never replaced", ["C51"], "if newPkg ≠ pkg.name then replacedAt (.specCopy r newPkg)", "if newPkg ≠ pkg.name ∧ pkg.importPath = [] then replacedAt (.specCopy r newPkg)")
m(DM, "qualifyD", "what a pointer in an interface points to is qualified in place", ["C51"], "          let dest ← alloc (.data (.scalar 0))\n          store dest (.data r.val.inIface)\n          pure ⟨.ptr dest [], none", "          let dest := a\n          store dest (.data r.val.inIface)\n          pure ⟨.ptr dest [], none")
m(DM, "qualifyD", "the address of the new embed is that of other memory", ["C51"], "if e.type ≠ s then pure ⟨.embed { e with type := s }, some newEmbed", "if e.type ≠ s then pure ⟨.embed { e with type := s }, some (newEmbed - 1)")
m(DM, "qualifyD", "a new slice has no elements", ["C51"], "| some a => pure (replaced (.slice ⟨a, 0, s.len⟩))", "| some a => pure (replaced (.slice ⟨a, 0, 0⟩))")
m(DM, "qualifyD", "pointers to interfaces keep their type", ["C51"], "| some b => pure ⟨.ptr b [], none, true, v.isIface || r.retyped⟩", "| some b => pure ⟨.ptr b [], none, true, r.retyped⟩")
m(DM, "qualifyD", "maps are left alone", ["C51"], "        | some b => pure (replaced (.map b))", "        | some _ => pure (unchanged d)")
m(DM, "qualifyD", "a changed method keeps its signature", ["C51"], "        pure ⟨.method { m with sig := s }, some newMethod, true, false⟩", "        pure ⟨.method m, some newMethod, true, false⟩")
m(DM, "qualifyTemplateDataM", "the data itself is not in an interface", ["C51"], "alloc (.array [.data (.iface acceptsAll data)])", "alloc (.array [.data (.iface { acceptsAll with symbol := false } data)])")
SM = "Model/SigMemory.lean"
m(SM, "appendElem", "room is always found, by growing the old array", ["C54"], "if s.off + s.len < l.length then do\n        store s.arr (.array (l.set (s.off + s.len) x))", "if true then do\n        store s.arr (.array (l.take (s.off + s.len) ++ [x]))")
m(SM, "appendElem", "the store is one element early", ["C54"], "l.set (s.off + s.len) x", "l.set (s.off + s.len - 1) x")
m(SM, "appendElem", "the elements before are lost when there is no room", ["C54"], "(l.drop s.off).take s.len ++ x ::", "List.replicate s.len Elem.zeroArg ++ x ::")
m(SM, "sigAddResultM", "the result is added to the arguments", ["C54"], "  let a ← appendElem g s.results (.arg name t)\n  store p (.sig { s with results := a })", "  let a ← appendElem g s.args (.arg name t)\n  store p (.sig { s with args := a })")
m(SM, "sigSetVariadicM", "variadic cannot be taken back", ["C54"], "{ s with isVariadic := b }", "{ s with isVariadic := s.isVariadic || b }")
m(SM, "sigQualifyM", "the new signature is not stored", ["C54"], "    let s ← loadSig q\n    store p (.sig s)", "    let _ ← loadSig q\n    pure ()")
m(SM, "mapTypeM", "key and element swapped", ["C54"], "pure (.map v k)", "pure (.map k v)")
m(SM, "channelTypeM", "direction 0 is kept", ["C54"], "let d := if d = 0 then bothDir else d\n  if t = .nil ∨ d &&& ~~~bothDir ≠ 0 then panic else pure (.chan t d)", "if t = .nil ∨ d &&& ~~~bothDir ≠ 0 then panic else pure (.chan t d)")
m(SM, "funcToTypeNameM", "the receiver is added to the signature itself", ["C54"], "    let q ← alloc (.sig ⟨⟨a, 0, s.args.len + 1⟩, s.results, s.isVariadic⟩)\n    funcTypeFromSigM q", "    let q := p\n    store q (.sig ⟨⟨a, 0, s.args.len + 1⟩, s.results, s.isVariadic⟩)\n    funcTypeFromSigM q")
m(SM, "funcToTypeNameM", "a copy is made for functions without receiver (the code corrected)", ["C54"], "  | none, _ => funcTypeFromSigM p", "  | none, _ => do\n    let s ← loadSig p\n    let q ← alloc (.sig s)\n    funcTypeFromSigM q")
m(SM, "methodToTypeNameM", "the type is not variadic", ["C54"], "⟨b, 0, s.results.len⟩, s.isVariadic⟩", "⟨b, 0, s.results.len⟩, false⟩")
m(SM, "methodToTypeNameM", "the results are shared", ["C54"], "let q ← alloc (.sig ⟨⟨a, 0, s.args.len + 1⟩, ⟨b, 0, s.results.len⟩, s.isVariadic⟩)", "let q ← alloc (.sig ⟨⟨a, 0, s.args.len + 1⟩, s.results, s.isVariadic⟩)")
m(SM, "SigCmd.execM", "a copy is the signature itself", ["C54"], "    let q ← alloc (.sig s)\n    pure (r.addObj q)", "    let _ ← alloc (.sig s)\n    pure (r.addObj p)")
m(R, "typeNameForReflectType", "maps are converted", ["C24"], "  | .map _ _ => .panic", "  | .map k e => do\n    let k ← typeNameForReflectType k\n    let e ← typeNameForReflectType e\n    mapType k e")
m(R, "typeNameForReflectType", "the length of arrays is lost", ["C24"], "arrayType (← typeNameForReflectType e) n", "arrayType (← typeNameForReflectType e) (n - n)")
m(R, "typeNameForReflectType", "defined types with basic kind are basic", ["C24"], "if kind.isBasic && pkgPath == [] then", "if kind.isBasic then")
m(R, "fieldsForReflectType", "embedded fields are left out", ["C24"], "  | .mk n _ t tag :: l => do\n    let t ← typeNameForReflectType t\n    let r ← fieldsForReflectType l\n    pure (⟨n, t, tag⟩ :: r)", "  | .mk n p t tag :: l => do\n    let t ← typeNameForReflectType t\n    let r ← fieldsForReflectType l\n    pure (if p then r else ⟨n, t, tag⟩ :: r)")
m(R, "fieldsForReflectType", "tags are lost", ["C24"], "    pure (⟨n, t, tag⟩ :: r)", "    pure (⟨n, t, []⟩ :: r)")
B = "Model/Builders.lean"
m(B, "modAt", "the change is made on a copy", ["C49"], "  | some a => .ok (upd m p (f a))\n", "  | some a => .ok (upd m p a)\n")
m(B, "newBlock", "the call is made on a block that is dropped", ["C32"], "pure (h.next, { r.2 with blocks := upd r.2.blocks h.next r.1 })", "pure (h.next, { r.2 with blocks := upd r.2.blocks h.next [] })")
m(B, "blockCall", "the result replaces nothing", ["C32"], "  pure { r.2 with blocks := upd r.2.blocks p r.1 }", "  pure { r.2 with blocks := upd r.2.blocks p cb }")
m(B, "valueDeclSetComment", "the comment is not kept", ["C49"], "modAt h.valueDecls p fun d => { d with comment }", "modAt h.valueDecls p fun d => { d with comment := comment.drop comment.length }")
m(B, "typeDeclSetComment", "a comment cannot be replaced", ["C49"], "modAt h.typeDecls p fun d => { d with comment }", "modAt h.typeDecls p fun d => { d with comment := if d.comment = [] then comment else d.comment }")
m(B, "typeSetComment", "the name is changed instead", ["C49"], "modAt h.types p fun t => { t with comment }", "modAt h.types p fun t => { t with name := comment }")
m(B, "fieldSetComment", "the tag is changed instead", ["C49"], "modAt h.fields p fun f => { f with comment }", "modAt h.fields p fun f => { f with tag := comment }")
m(B, "newInterfaceEmbed", "the package is forgotten", ["C48"], "{ type := s }, next", "{ type := { s with package := ⟨[], []⟩ } }, next")
m(B, "methodSetComment", "comments add up", ["C49"], "modAt h.methods p fun m => { m with comment }", "modAt h.methods p fun m => { m with comment := m.comment ++ comment }")
C = "Model/Code.lean"
m(C, "QM.forEach", "only the first is done", ["C30"], "  | a :: l => bind (f a) fun _ => forEach f l", "  | a :: _ => f a")
m(C, "Heap.allocArgs", "all blocks share one slice", ["C32"], "  (h.next, { h with args := upd h.args h.next args, next := h.next + 1 })", "  (0, { h with args := upd h.args 0 args, next := h.next + 1 })")
DM = "Model/DataMemory.lean"
m(DM, "DVal.at", "pointers into structs get the next field", ["C52"], "  | .struct fs, k :: ks => match fs[k]? with", "  | .struct fs, k :: ks => match fs[k + 1]? with")
m(DM, "loadData", "the path is ignored", ["C52"], "(← load a).at path", "(← load a).at []")
m(DM, "buildArgs", "names are lost", ["C52"], "pure (.arg n t :: l)", "pure (.arg [] t :: l)")
m(DM, "buildMethods", "names are lost", ["C52"], "pure (.method n s :: l)", "pure (.method [] s :: l)")
m(DM, "replacedAt", "the copy is empty", ["C52"], "  let a ← alloc (.data v)\n  pure ⟨v, some a, true, false⟩", "  let a ← alloc (.data (.scalar 0))\n  pure ⟨v, some a, true, false⟩")
m(DM, "replaced", "the change is not told", ["C52"], "def replaced (v : DVal) : DRes := ⟨v, none, true, false⟩", "def replaced (v : DVal) : DRes := ⟨v, none, false, false⟩")
m(DM, "Shape.cell", "all fields of a new struct are exported", ["C52"], ".data (.struct (exported.zip l))", ".data (.struct (l.map fun v => (true, v)))")
m(DM, "Shape.hides", "fields are never hidden", ["C52"], "  | .struct exported, idx => exported[idx]? == some false", "  | .struct exported, idx => exported[idx]? == none")
m(DM, "Shape.sliceable", "arrays can always be sliced", ["C52"], "  | .array, addr => addr\n", "  | .array, _ => true\n")
m(DM, "keyEqFieldsM", "only the first field is compared", ["C52"], "a.keyEq b && keyEqFieldsM l l'", "a.keyEq b && l.length == l'.length")
m(DM, "keyEqElemsM", "arrays of the same length are equal keys", ["C52"], "a.keyEq b && keyEqElemsM l l'", "keyEqElemsM l l'")
m(DM, "setMapIndexM", "a new map has one entry only", ["C52"], "store a (.map (setEntry es k v))", "store a (.map (setEntry [] k v))")
m(DM, "copyEntries", "one entry is copied", ["C52"], "    setMapIndexM a k v\n    copyEntries a es", "    setMapIndexM a k v")
F = "Model/File.lean"
m(F, "TypeRef.arg", "a spec has no type text", ["C41"], "  | .spec p => some (.typeSpec p)", "  | .spec _ => none")
m(F, "IfaceElem.text", "embedded interfaces are not written", ["C39"], "  | .embed p => (deref h.embeds p).bind fun e => .ok e.text", "  | .embed p => (deref h.embeds p).bind fun _ => .ok []")
m(F, "FileElem.text", "type declarations are not written", ["C29"], "  | .types p => (deref h.typeDecls p).bind fun d => d.text env h fuel", "  | .types p => (deref h.typeDecls p).bind fun _ => .ok []")
m(F, "Heap.allocType", "the address is not taken", ["C48"], "types := upd h.types h.next t, next := h.next + 1", "types := upd h.types h.next t")
X = "Model/Fmt.lean"
m(X, "packageAt", "the package has no path", ["C28"], "  pure f.package", "  pure { f.package with importPath := [] }")
m(X, "symbolStrings", "every name is the first", ["C33"], "    let s ← c.symbolAt h i\n", "    let s ← c.symbolAt h (i - i)\n")
m(X, "TypeSpec.toSymbol", "specs without name have symbols", ["C28"], "  if t.name = [] then .panic\n  else\n    match t.parent with\n    | none => .panic", "  if t.name = [] ∧ t.parent = none then .panic\n  else\n    match t.parent with\n    | none => .panic")
m(X, "TypeSpec.string", "the name without package", ["C33"], "    | some _ => do\n      let s ← t.toSymbol h\n      pure s.string\n\n/-- `TypeSpec.ToTypeName`", "    | some _ => .ok t.name\n\n/-- `TypeSpec.ToTypeName`")
m(X, "SymbolOrMethodRef.string", "methods without type", ["C33"], "  | .method m => m.string", "  | .method m => m.method")
m(X, "Shown.ofString", "a panic is an empty text", ["C33"], "  | _ => .other\n\n/-- How", "  | _ => .str []\n\n/-- How")
m(X, "fprintf", "what is not described is written as it is", ["C32"], "  | none => env.fmtOther h format args", "  | none => format")
G = "Model/GoTypes.lean"
m(G, "symbolForTypesName", "the name of the package is lost", ["C23"], "  pure { name := n.name, package := p }", "  pure { name := n.name, package := { p with name := [] } }")
m(G, "TypesObject.name", "functions have the name of their package", ["C25"], "  | .func _ n _ => n", "  | .func p n _ => match p with\n    | some q => q.name\n    | none => n")
m(G, "TypesObject.pkg", "only functions have packages", ["C25"], "  | .other p _ => p", "  | .other _ _ => none")
H = "Model/Heap.lean"
m(H, "GoFile.package", "the package is named after the path", ["C28"], "{ name := f.packageName, importPath := f.imports.pkgPath }", "{ name := pathBase f.imports.pkgPath, importPath := f.imports.pkgPath }")
m(H, "acceptsAll", "the data itself cannot be a package", ["C42"], "⟨true, true, true, true⟩", "⟨true, true, true, false⟩")
m(H, "upd", "other addresses are changed, too", ["C49"], "if q = p then some a else m q", "if q ≤ p then some a else m q")
m(H, "deref", "no panic but no end", ["C49"], "  | some a => .ok a\n  | none => .panic\n", "  | some a => .ok a\n  | none => .hang\n")
I = "Model/Imports.lean"
m(I, "registerImport", "the package name is ignored", ["C04"], "  prefixForPackage importPath packageName true", "  prefixForPackage importPath [] true")
m(I, "registerPackage", "the dot is kept", ["C42"], "  pure (trimDot p)", "  pure p")
m(I, "ensureImported", "the package must be known already", ["C05"], "def ensureImported (sym : Symbol) : IM Symbol := qualify sym true", "def ensureImported (sym : Symbol) : IM Symbol := qualify sym false")
m(I, "ensureTypeImported", "the result is the argument", ["C10"], "  let (t, _) ← qualifyType true t\n  pure t", "  let (_, _) ← qualifyType true t\n  pure t")
m(I, "ensureTypeImported", "packages are not registered", ["C10"], "  let (t, _) ← qualifyType true t\n", "  let (t, _) ← qualifyType false t\n")
m(I, "ensureAllTypesImported", "the result is the argument", ["C10"], "  let (s, _) ← qualifySignature true s\n", "  let (_, _) ← qualifySignature true s\n")
m(I, "importSpecsInOrder", "the order is that of the map", ["C06"], "  sortSpecs (order.map specOf)", "  order.map specOf")
m(I, "Imports.importSpecs", "the first is missing", ["C06"], "importSpecsInOrder i.importsByPath", "importSpecsInOrder i.importsByPath.tail")
MEM = "Model/Memory.lean"
m(MEM, "MM.alloc", "the same address is used again", ["C13"], "some c else m.cells p, next := m.next + 1 }, i)", "some c else m.cells p, next := m.next }, i)")
m(MEM, "MM.store", "stores are not noted", ["C13"], "some c else m.cells q, stores := p :: m.stores }", "some c else m.cells q, stores := m.stores }")
m(MEM, "MM.loadSlice", "the offset is ignored", ["C13"], "(.ok ((l.drop s.off).take s.len), m, i)", "(.ok (l.take s.len), m, i)")
m(MEM, "MM.storeElem", "the offset is ignored", ["C13"], "store s.arr (.array (l.set (s.off + idx) x)) else panic", "store s.arr (.array (l.set idx x)) else panic")
m(MEM, "MM.copySlice", "the slice itself", ["C13"], "  let l ← loadSlice s\n  let p ← alloc (.array l)\n  pure ⟨p, 0, s.len⟩", "  let l ← loadSlice s\n  let _ ← alloc (.array l)\n  pure s")
m(MEM, "qualifySymbolsM", "nothing is new", ["C13"], "if nt ≠ s then pure (some (.sym nt)) else pure none", "if nt = s then pure (some (.sym nt)) else pure none")
m(MEM, "qualifyArgsM", "the name is lost", ["C13"], "pure (some (.arg name nt)) else", "pure (some (.arg [] nt)) else")
m(MEM, "qualifyFieldsM", "the tag is lost", ["C13"], "pure (some (.field name nt tag)) else", "pure (some (.field name nt [])) else")
m(MEM, "Elem.nilTyped", "nothing is nil", ["C13"], "  | .arg _ .nil => true", "  | .arg _ .nil => false")
m(MEM, "funcTypeFromSigM", "results are not checked", ["C54"], "  else if results.any Elem.nilTyped then panic\n", "  else if results.any (fun _ => false) then panic\n")
m(MEM, "ensureTypeImportedM", "packages are not registered", ["C13"], "MM MType := qualifyTypeM true fuel t", "MM MType := qualifyTypeM false fuel t")
m(MEM, "qualifyTypeOnlyM", "packages are registered", ["C13"], "MM MType := qualifyTypeM false fuel t", "MM MType := qualifyTypeM true fuel t")
m(MEM, "qualifySignatureOnlyM", "packages are registered", ["C13"], "qualifySignatureM (qualifyTypeM false fuel) s", "qualifySignatureM (qualifyTypeM true fuel) s")
Q = "Model/Quote.lean"
m(Q, "isPrint", "0xAD is printed", ["C19"], "(0xA1 ≤ r && r != 0xAD)", "(0xA1 ≤ r)")
m(Q, "isPrint", "DEL is printed", ["C19"], "0x20 ≤ r && r < 0x7F", "0x20 ≤ r && r ≤ 0x7F")
m(Q, "lowerHex", "digits above nine are wrong", ["C19"], "UInt8.ofNat (87 + n)", "UInt8.ofNat (88 + n)")
m(Q, "quote", "the last quote is missing", ["C19"], "  34 :: quoteLoop tbl s.length s ++ [34]", "  34 :: quoteLoop tbl s.length s")
m(Q, "canBackquote", "the last byte is not looked at", ["C19"], "canBackquoteLoop s.length s", "canBackquoteLoop (s.length - 1) s")
RF = "Model/Reflect.lean"
m(RF, "setArg", "too few arguments are no panic", ["C24"], "if i < args.length then .ok (args.set i a) else .panic", ".ok (args.set i a)")
m(RF, "signatureFromReflectType", "never variadic", ["C24"], "⟨[], .nil⟩, variadic⟩", "⟨[], .nil⟩, false⟩")
m(RF, "argsForReflectType", "arguments in reverse order", ["C24"], "    pure (⟨[], t⟩ :: r)", "    pure (r ++ [⟨[], t⟩])")
R = "Model/Render.lean"
m(R, "anyNamed", "all must be named", ["C20"], "args.any (fun a => decide (a.name ≠ []))", "args.all (fun a => decide (a.name ≠ []))")
m(R, "methodsToBuffer", "no separator between methods", ["C17"], "pure ((if i > 0 then b! \"; \" else []) ++ name ++ a ++ b)", "pure (name ++ a ++ b)")
m(R, "methodsToBuffer", "separator after embedded interfaces (the code corrected by half)", ["C17"], "    let a ← methodsToBuffer tbl 0 ms\n", "    let a ← methodsToBuffer tbl es.length ms\n")
m(R, "embedsToBuffer", "only the first is written", ["C17"], "symbolText s ++ embedsToBuffer (i + 1) l", "symbolText s")
SM = "Model/SigMemory.lean"
m(SM, "newSigM", "new signatures are variadic", ["C54"], "⟨0, 0, 0⟩, false⟩)", "⟨0, 0, 0⟩, true⟩)")
m(SM, "sigAddArgM", "the name is lost", ["C54"], "appendElem g s.args (.arg name t)", "appendElem g s.args (.arg [] t)")
m(SM, "arrayTypeM", "negative lengths are fine", ["C54"], "if t = .nil ∨ length < 0 then panic else pure (.array t length)\n\n", "if t = .nil then panic else pure (.array t length)\n\n")
m(SM, "pointerTypeM", "pointers to pointers are collapsed", ["C54"], "if t = .nil then panic else pure (.ptr t)\n\n/-- `SliceType`", "if t = .nil then panic else match t with\n  | .ptr e => pure (.ptr e)\n  | t => pure (.ptr t)\n\n/-- `SliceType`")
m(SM, "SigRefs.fields", "tags are lost", ["C54"], "pure (.field name v tag :: l)", "pure (.field name v [] :: l)")
m(SM, "runSigM", "only the first command", ["C54"], "    let r ← c.execM g fuel r\n    runSigM g fuel r cs", "    let r ← c.execM g fuel r\n    pure r")
D = "Model/Template.lean"
m(D, "InterfaceEmbed.qualify", "never changed", ["C42"], "pure ({ e with type := s }, decide (e.type ≠ s))", "pure ({ e with type := s }, false)")
m(D, "InterfaceMethod.qualify", "the old signature is kept", ["C42"], "  pure ({ m with signature := sig }, c)", "  pure ({ m with signature := if c then m.signature else sig }, c)")
P = "Model/TemplatePure.lean"
m(P, "qualifyDataPure", "slices are left alone", ["C59"], "  | .slice vs => do\n    let (vs', c) ← qualifyDataElemsPure h true true false vs\n    pure (.slice vs', c)", "  | .slice vs => pure (.slice vs, false)")
m(P, "qualifyDataPure", "keys and values that changed are not stored", ["C59"], "    if c then pure (.map (es'.foldl (fun m e => setMapIndex m e.1 e.2) []), true)", "    if c then pure (.map es, true)")
m(P, "qualifyDataFieldsPure", "unexported fields are looked at", ["C59"], "      pure ((false, v) :: fs', c')", "      let (v', _) ← qualifyDataPure h addr v\n      pure ((false, v') :: fs', c')")
m(P, "qualifyDataFieldsPure", "unexported fields are dropped", ["C59"], "      pure ((false, v) :: fs', c')", "      pure (fs', c')")
m(P, "qualifyDataFieldsPure", "unexported fields do not get in the way (the code corrected)", ["C59"], "    if (!changed && c && hidden) || (c && v.ifacePtr) then IM.panic", "    if c && v.ifacePtr then IM.panic")
m(P, "qualifyDataElemsPure", "elements after the first change are dropped", ["C59"], "      pure (v' :: vs', c')", "      pure (if c then [v'] else v' :: vs', c')")
m(P, "qualifyDataEntriesPure", "keys are left alone", ["C59"], "      pure ((k', v') :: es', ck || cv || c)", "      pure ((k, v') :: es', cv || c)")
m(P, "qualifyTemplateDataPure", "the data is returned as it was", ["C59"], "  | .iface _ v => pure v\n", "  | .iface _ _ => pure data\n")
T = "Model/Text.lean"
m(T, "splitOn", "empty pieces are left out", ["C26"], "    if c = sep then [] :: splitOn sep s", "    if c = sep then splitOn sep s")
m(T, "joinWith", "no separator before the last", ["C33"], "  | p :: q :: ps => p ++ sep ++ joinWith sep (q :: ps)", "  | [p, q] => p ++ q\n  | p :: q :: ps => p ++ sep ++ joinWith sep (q :: ps)")
T = "Model/Types.lean"
m(T, "Package.symbol", "the path is lost", ["C46"], "{ name, package := p }", "{ name, package := { p with importPath := [] } }")
m(T, "newSymbol", "the name of the package is missing", ["C46"], "(newPackage importPath).symbol symName", "({ newPackage importPath with name := [] } : Package).symbol symName")
m(T, "Package.string", "the path is shown", ["C33"], "def Package.string (p : Package) : GoString := p.name", "def Package.string (p : Package) : GoString := p.importPath")
m(T, "ReflectKind.kindString", "uintptr is written as uint", ["C17"], "| .uintptr => b! \"uintptr\"", "| .uintptr => b! \"uint\"")
m(T, "ReflectKind.isBasic", "complex numbers are missing", ["C15"], "  | .float32 | .float64 | .complex64 | .complex128 => true", "  | .float32 | .float64 => true")
m(T, "sendDir", "directions swapped", ["C17"], "def sendDir : ChanDir := 2", "def sendDir : ChanDir := 1")
m(T, "TypeName.kind", "arrays are slices", ["C15"], "  | .array _ _ => .ok .array", "  | .array _ _ => .ok .slice")
m(T, "TypeName.symbol", "pointers have the symbol of what they point to", ["C15"], "  | .named s => .ok s\n  | _ => .ok Symbol.zero", "  | .named s => .ok s\n  | .ptr (.named s) => .ok s\n  | _ => .ok Symbol.zero")
m(T, "TypeName.elem", "the element of a map is its key", ["C15"], "  | .map e _ => .ok e\n  | .chan e _ => .ok e\n  | _ => .ok .nil", "  | .map _ e => .ok e\n  | .chan e _ => .ok e\n  | _ => .ok .nil")
m(T, "TypeName.dir", "the direction of other types is both", ["C15"], "  | .chan _ d => .ok d\n  | _ => .ok 0", "  | .chan _ d => .ok d\n  | _ => .ok bothDir")
m(T, "TypeName.basicKind", "named types have a basic kind", ["C15"], "  | .basic k => .ok k\n  | _ => .ok .invalid", "  | .basic k => .ok k\n  | .named _ => .ok .struct\n  | _ => .ok .invalid")
m(T, "TypeName.signature", "function types lose variadicity", ["C15"], "  | .func s => .ok (some s)", "  | .func s => .ok (some { s with isVariadic := false })")
m(T, "TypeName.fields", "interfaces have no fields but an empty list", ["C15"], "  | .struct fs => .ok (some fs)\n  | _ => .ok none", "  | .struct fs => .ok (some fs)\n  | .interface _ _ => .ok (some [])\n  | _ => .ok none")
m(T, "TypeName.embeds", "in reverse order", ["C15"], "  | .interface _ es => .ok (some es)", "  | .interface _ es => .ok (some es.reverse)")
m(T, "unsafePointerType", "named with a small letter", ["C16"], "(b! \"Pointer\")", "(b! \"pointer\")")
m(T, "errorType", "error has a package", ["C23"], "{ package := ⟨[], []⟩, name := b! \"error\" }", "{ package := ⟨b! \"builtin\", []⟩, name := b! \"error\" }")
m(T, "funcType", "variadic", ["C16"], "  funcTypeFromSig { args, results, isVariadic := false }", "  funcTypeFromSig { args, results, isVariadic := true }")
m(T, "funcTypeVariadic", "results and arguments swapped", ["C16"], "  funcTypeFromSig { args, results, isVariadic := true }", "  funcTypeFromSig { args := results, results := args, isVariadic := true }")
m(T, "structType", "fields in reverse order", ["C15"], "TypeName := .struct fields", "TypeName := .struct fields.reverse")
m(T, "interfaceType", "embedded interfaces are lost", ["C15"], "  .interface methods embeds\n", "  .interface methods (embeds.take 0)\n")
m(T, "Signature.addResult", "the result comes first", ["C47"], "results := s.results ++ [⟨name, t⟩]", "results := ⟨name, t⟩ :: s.results")
m(T, "Signature.setVariadic", "always true", ["C47"], "{ s with isVariadic := b }", "{ s with isVariadic := b || true }")
U = "Model/Utf8.lean"
m(U, "runeError", "another rune", ["C22"], "def runeError : Nat := 0xFFFD", "def runeError : Nat := 0xFFFE")
m(U, "isCont", "one byte too many", ["C22"], "b.toNat ≤ 0xBF", "b.toNat ≤ 0xC0")
m(U, "decodeRune", "surrogates are decoded", ["C22"], "            (a != 0xED || b1.toNat ≤ 0x9F) then", "            (a != 0xED || b1.toNat ≤ 0xBF) then")
m(U, "decodeRune", "overlong forms are decoded", ["C22"], "    else if a < 0xC2 then (runeError, 1)", "    else if a < 0xC0 then (runeError, 1)")
m(U, "encodeRune", "surrogates are encoded", ["C22"], "encodeScalar (if isScalar r then r else runeError)", "encodeScalar r")
O = "Model/Output.lean"
m(O, "cleanStep", ".. at the root is kept", ["C38"], "    | [] => if rooted then [] else [e]", "    | [] => [e]")
m(O, "cleanStep", "a .. removes a .. before it", ["C38"], "if top = b! \"..\" then e :: stack else below", "below")
G = "Model/GoPath.lean"
m(G, "filepathExt", "the extension begins at the first dot", ["C27"], "  if dot ∈ last then (last.takeWhile (· != dot)).reverse.cons dot else []", "  if dot ∈ last then last.reverse.dropWhile (· != dot) else []")
m(G, "filepathExt", "dots in directories count", ["C27"], "  let last := p.reverse.takeWhile (· != slash)\n  if dot ∈ last", "  let last := p.reverse\n  if dot ∈ last")
B = "Model/Builders.lean"
m(B, "fileAssign", "the field is not changed", ["C49"], "modAt h.files p fun f => f.assign s k", "modAt h.files p fun f => f.assign [] k")
LM = "Model/ListMemory.lean"
m(LM, "overwrite", "one element too many is replaced", ["C60"], "l.drop (pos + xs.length)", "l.drop (pos + xs.length + 1)")
m(LM, "overwrite", "elements are inserted", ["C60"], "l.take pos ++ xs ++ l.drop (pos + xs.length)", "l.take pos ++ xs ++ l.drop pos")
m(LM, "ListMem.content", "the slice extends to the end of the array", ["C60"], "((m.arrayOf v.arr).drop v.off).take v.len", "(m.arrayOf v.arr).drop v.off")
m(LM, "ListMem.append", "append always copies", ["C60"], "v.off + v.len + xs.length ≤ (m.arrayOf v.arr).length then", "v.off + v.len + xs.length ≤ 0 then")
m(LM, "ListMem.append", "append writes one element beyond the array", ["C60"], "v.off + v.len + xs.length ≤ (m.arrayOf v.arr).length then", "v.off + v.len + xs.length ≤ (m.arrayOf v.arr).length + 1 then")
m(LM, "ListMem.append", "the capacity is that of a full slice expression", ["C60"], "v.off + v.len + xs.length ≤ (m.arrayOf v.arr).length then", "v.off + v.len + xs.length ≤ v.off + v.len then")
m(LM, "ListMem.append", "the length is not updated in place", ["C60"], "views := m.views.set o { v with len := v.len + xs.length } }", "views := m.views.set o { v with len := v.len } }")
m(LM, "ListMem.append", "the new array forgets the old elements", ["C60"], "[m.content v ++ xs ++ List.replicate (g m v) 0]", "[xs ++ List.replicate (g m v) 0]")
m(LM, "ListMem.append", "stores at the end of the array", ["C60"], "m.write v.arr (v.off + v.len) xs with", "m.write v.arr ((m.arrayOf v.arr).length - xs.length) xs with")
m(LM, "ListMem.append", "the offset is kept in the new array", ["C60"], "views := m.views.set o ⟨m.arrays.length, 0, v.len + xs.length⟩ }", "views := m.views.set o ⟨m.arrays.length, v.off, v.len + xs.length⟩ }")
m(LM, "ListMem.exec", "make without copying: the spare elements count", ["C60"], "views := m.views ++ [⟨m.arrays.length, 0, l.length⟩] }", "views := m.views ++ [⟨m.arrays.length, 0, l.length + spare⟩] }")
m(LM, "ListMem.exec", "share copies", ["C60"], "    some { m with views := m.views ++ [v] }", "    some { arrays := m.arrays ++ [m.content v], views := m.views ++ [⟨m.arrays.length, 0, v.len⟩] }")
m(LM, "ListMem.exec", "a part begins at the beginning of the array", ["C60"], "[⟨v.arr, v.off + a, b - a⟩]", "[⟨v.arr, a, b - a⟩]")
m(LM, "ListMem.exec", "a part is as long as its end", ["C60"], "[⟨v.arr, v.off + a, b - a⟩]", "[⟨v.arr, v.off + a, b⟩]")
m(LM, "ListMem.exec", "clone shares", ["C60"], "           views := m.views ++ [⟨m.arrays.length, 0, v.len⟩] }", "           views := m.views ++ [v] }")
m(LM, "ListMem.exec", "an empty clone has room", ["C60"], "List.replicate (if v.len = 0 then 0 else g m v) 0", "List.replicate (g m v) 0")
m(LM, "ListMem.exec", "AddCode appends the block to the other", ["C60"], "some (m.append g o v (m.content w))", "some (m.append g o' w (m.content v))")
m(LM, "ListMem.exec", "AddCode adds only the first element", ["C60"], "some (m.append g o v (m.content w))", "some (m.append g o v ((m.content w).take 1))")
m(LM, "ListMem.exec", "a store beyond the length does not panic", ["C60"], "if k < v.len then some", "if k ≤ v.len then some")
m(LM, "ListMem.exec", "rewriting makes a new slice", ["C60"], "some (m.write v.arr v.off l) else none", "some { arrays := m.arrays ++ [l], views := m.views.set o ⟨m.arrays.length, 0, v.len⟩ } else none")
TT = "Model/TemplateText.lean"
m(TT, "TVal.indirect", "what is in an interface counts as addressable", ["C61"], "  | .iface _ v => v.indirect false\n", "  | .iface _ v => v.indirect addr\n")
m(TT, "TVal.indirect", "what a pointer points to is as addressable as the pointer", ["C61"], "  | .ptr v => v.indirect true\n", "  | .ptr v => v.indirect addr\n")
m(TT, "TVal.indirect", "pointers are not followed", ["C61"], "  | .ptr v => v.indirect true\n", "")
m(TT, "TVal.inInterfaces", "interfaces are not looked into", ["C61"], "  | .iface _ v => v.inInterfaces false\n", "")
m(TT, "TVal.isKey", "keys in interfaces are not found", ["C61"], "  | .iface _ (.scalar a) => a == id\n", "")
m(TT, "entryFor", "the entry of another key is taken", ["C61"], "if k.isKey id then some v else entryFor id es", "if k.isKey id then (es.head?.map (·.2)).getD v else entryFor id es")
m(TT, "TStep.next", "unexported fields can be read", ["C61"], "      | some (true, w) => some (a, w)", "      | some (_, w) => some (a, w)")
m(TT, "TStep.next", "the next field is taken", ["C61"], "      match fs[k]? with", "      match fs[k + 1]? with")
m(TT, "TStep.next", "the elements of a slice are not addressable", ["C61"], "(_, .slice vs) => vs[k]?.map fun w => (true, w)", "(a, .slice vs) => vs[k]?.map fun w => (a, w)")
m(TT, "TStep.next", "the values of a map are addressable", ["C61"], "(entryFor id es).map fun w => (false, w)", "(entryFor id es).map fun w => (true, w)")
m(TT, "TVal.follow", "it is not kept whether a value is addressable", ["C61"], "(s.next addr v).bind fun x => x.2.follow x.1 path", "(s.next addr v).bind fun x => x.2.follow addr path")
m(TT, "SpecRef.shown", "a value shows its names without the package", ["C61"], ".ofString ((deref h.values p).bind (·.string h))", ".ofString ((deref h.values p).bind fun c => .ok (joinWith (b! \", \") c.names))")
m(TT, "SpecRef.shownIn", "a copy of a value shows its names without the package", ["C61"], "c.names.map fun n => Symbol.string ⟨⟨[], pkgName⟩, n⟩", "c.names.map fun n => Symbol.string ⟨⟨[], []⟩, n⟩")
m(TT, "SpecRef.shownIn", "a copy of a type shows the name only", ["C61"], ".ok (Symbol.string ⟨⟨[], pkgName⟩, t.name⟩))", ".ok t.name)")
m(TT, "SpecRef.shownIn", "a copy of a method shows the package", ["C61"], "if f.receiver = none then Symbol.string ⟨⟨[], pkgName⟩, f.name⟩ else f.name", "Symbol.string ⟨⟨[], pkgName⟩, f.name⟩")
m(TT, "TVal.shown", "a symbol shows its name only", ["C61"], "  | (_, .symbol s) => .str s.string\n", "  | (_, .symbol s) => .str s.name\n")
m(TT, "TVal.shown", "a method reference shows its type", ["C61"], "  | (_, .mref m) => .str m.string\n", "  | (_, .mref m) => .str m.type.string\n")
m(TT, "TVal.shown", "specs that are not addressable have the String method", ["C61"], "  | (true, .spec r) => r.shown tbl h\n", "  | (_, .spec r) => r.shown tbl h\n")
m(TT, "TVal.shown", "a copy of a spec is shown like the spec", ["C61"], "  | (true, .specCopy r n) => r.shownIn tbl h n\n", "  | (true, .specCopy r _) => r.shown tbl h\n")
m(TT, "TVal.shown", "an embedded interface shows its name only", ["C61"], "  | (true, .embed e) => .str e.type.string\n", "  | (true, .embed e) => .str e.type.name\n")
m(TT, "TVal.items", "loops leave out the first element", ["C61"], "  | (_, .slice vs) => some (true, numberedFrom sc 0 vs)\n", "  | (_, .slice vs) => some (true, numberedFrom sc 0 vs.tail)\n")
m(TT, "TVal.items", "loops do not go through arrays", ["C61"], "  | (a, .array vs) => some (a, numberedFrom sc 0 vs)\n", "")
m(TT, "joinAll", "the texts are joined in the opposite order", ["C61"], "  | a :: l =>\n    match f a, joinAll f l with\n    | some x, some y => some (x ++ y)", "  | a :: l =>\n    match f a, joinAll f l with\n    | some x, some y => some (y ++ x)")
m(TT, "TNode.run", "text is left out", ["C61"], "  | .text s, _ => some s\n", "  | .text _, _ => some []\n")
m(TT, "TNode.run", "a loop is executed for the whole", ["C61"], "joinAll (fun e => runNodes sc leaf body ⟨(y.1, e.2), σ.vars ++ [(false, e.1), (y.1, e.2)]⟩) y.2", "joinAll (fun e => runNodes sc leaf body ⟨x, σ.vars ++ [(false, e.1), x]⟩) y.2")
m(TT, "TScope.start", "the data is addressable", ["C61"], "⟨(false, .iface acceptsAll data), [(false, .iface acceptsAll data)]⟩", "⟨(true, data), [(true, data)]⟩")
F = "Model/File.lean"
m(F, "qualifyFunc", "the package fmt is imported for each function", ["C62"], "QM.bind (QM.lift fun _ => ensureAllTypesImported f.signature) fun sig =>\n  QM.bind (QM.modify fun h => { h with funcs", "QM.bind (QM.lift fun _ => Imports.registerPackage ⟨b! \"fmt\", b! \"fmt\"⟩) fun _ =>\n  QM.bind (QM.lift fun _ => ensureAllTypesImported f.signature) fun sig =>\n  QM.bind (QM.modify fun h => { h with funcs")
m(F, "qualifyTypeRef", "the package of a named spec is imported, its body too", ["C62"], "  | .spec p => QM.bind (qualifySpec fuel p) fun _ => QM.ret (.spec p)", "  | .spec p => QM.bind (QM.lift fun h => IM.lift ((deref h.types p).bind (·.toSymbol h)) >>= fun s => Imports.registerPackage s.package) fun _ => QM.bind (qualifySpec fuel p) fun _ => QM.ret (.spec p)")
m(F, "qualifyValue", "the initializer is not visited", ["C62"], "  | some b => QM.bind (QM.read (·.blocks) b) qualifyCode\n", "  | some _ => QM.ret ()\n")
m(F, "qualifySpec", "the underlying type is not visited if there is a body", ["C62"], "QM.bind (QM.lift fun _ => ensureTypeImported ts.underlying) fun u =>", "QM.bind (QM.lift fun _ => if ts.structBody = [] then ensureTypeImported ts.underlying else pure ts.underlying) fun u =>")
C = "Model/Code.lean"
m(C, "CodeElem.qualify", "the package text/template is imported for templates", ["C62"], "QM.bind (QM.lift fun h => qualifyTemplateData h t.data) fun d =>\n    QM.modify", "QM.bind (QM.lift fun _ => Imports.registerPackage ⟨b! \"text/template\", b! \"template\"⟩) fun _ =>\n    QM.bind (QM.lift fun h => qualifyTemplateData h t.data) fun d =>\n    QM.modify")
SM = "Model/SigMemory.lean"
m(SM, "funcToTypeNameM", "the receiver of a method is the last argument", ["C54"], "let a ← alloc (.array (.arg r.name rt :: l))", "let a ← alloc (.array (l ++ [.arg r.name rt]))")
m(SM, "funcToTypeNameM", "pointer receivers are not seen", ["C54"], "let rt ← (if r.isPointer then pointerTypeM named else pure named)", "let rt ← (if false then pointerTypeM named else pure named)")
m(SM, "funcToTypeNameM", "functions without receiver give a copy of the signature", ["C54"], "  | none, _ => funcTypeFromSigM p\n", "  | none, _ => do\n    let s ← loadSig p\n    let q ← alloc (.sig s)\n    funcTypeFromSigM q\n")
m(SM, "methodToTypeNameM", "the results are left out", ["C54"], "⟨b, 0, s.results.len⟩", "⟨b, 0, 0⟩")
m(SM, "methodToTypeNameM", "the type is not variadic", ["C54"], "⟨b, 0, s.results.len⟩, s.isVariadic⟩", "⟨b, 0, s.results.len⟩, false⟩")
m(SM, "sigQualifyM", "the qualified signature is not stored", ["C54"], "    store p (.sig s)\n  else pure ()", "    pure ()\n  else pure ()")
m(SM, "appendElem", "the new array drops the first element", ["C54"], "let a ← alloc (.array ((l.drop s.off).take s.len ++ x ::", "let a ← alloc (.array ((l.drop (s.off + 1)).take s.len ++ x ::")
m(SM, "appendElem", "the element is stored one place too far", ["C54"], "l.set (s.off + s.len) x", "l.set (s.off + s.len + 1) x")
DM = "Model/DataMemory.lean"
MM = "Model/Memory.lean"
LM = "Model/ListMemory.lean"
T = "Model/Template.lean"
TY = "Model/Types.lean"
R = "Model/Reflect.lean"
RE = "Model/Render.lean"
I = "Model/Imports.lean"
m(DM, "DVal.inIface", "what is in an interface is not taken out", ["C52"], "def DVal.inIface : DVal → DVal\n  | .iface _ v => v\n", "def DVal.inIface : DVal → DVal\n")
m(DM, "DVal.isIface", "no variable has an interface type", ["C52"], "def DVal.isIface : DVal → Bool\n  | .iface _ _ => true\n", "def DVal.isIface : DVal → Bool\n")
m(DM, "unchanged", "values that are not changed count as changed", ["C52"], "def unchanged (v : DVal) : DRes := ⟨v, none, false, false⟩", "def unchanged (v : DVal) : DRes := ⟨v, none, true, false⟩")
m(DM, "partOf", "a missing part is nil", ["C52"], "def partOf (l : List DVal) (idx : Nat) : MM DVal :=\n  match l[idx]? with", "def partOf (l : List DVal) (idx : Nat) : MM DVal :=\n  match l[idx - 1]? with")
m(DM, "loadDataElem", "the next element is read", ["C52"], "  match ← loadElem s idx with\n  | .data v => pure v", "  match ← loadElem s (idx + 1) with\n  | .data v => pure v")
m(MM, "loadElem", "elements are counted from the end", ["C51"], "match (← loadSlice s)[idx]? with", "match (← loadSlice s).reverse[idx]? with")
m(MM, "ensureAllTypesImportedM", "packages are not registered", ["C51"], "def ensureAllTypesImportedM (fuel : Nat) (s : Nat) : MM Nat := qualifySignatureM (qualifyTypeM true fuel) s", "def ensureAllTypesImportedM (fuel : Nat) (s : Nat) : MM Nat := qualifySignatureM (qualifyTypeM false fuel) s")
m(MM, "qualifySignatureOnlyM", "packages are registered", ["C51"], "def qualifySignatureOnlyM (fuel : Nat) (s : Nat) : MM Nat := qualifySignatureM (qualifyTypeM false fuel) s", "def qualifySignatureOnlyM (fuel : Nat) (s : Nat) : MM Nat := qualifySignatureM (qualifyTypeM true fuel) s")
m(LM, "write", "storing ignores the position", ["C60"], "overwrite (m.arrayOf a) pos xs", "overwrite (m.arrayOf a) 0 xs")
m(LM, "content", "the content of a slice ignores its start", ["C60"], "((m.arrayOf v.arr).drop v.off).take v.len", "(m.arrayOf v.arr).take v.len")
m(R, "RT.pkgPath", "types have no package", ["C24"], "  | .defined _ p _ => p\n  | _ => []\n\n/-- `sig.Args[i] = a`", "  | .defined _ _ _ => []\n  | _ => []\n\n/-- `sig.Args[i] = a`")
m(RE, "elemToBuffer", "variadic arguments are written as slices", ["C17"], "Outcome.bind (elemToBuffer tbl t) fun a => .ok (b! \"...\" ++ a)", "Outcome.bind (typeNameToBuffer tbl t) fun a => .ok (b! \"...\" ++ a)")
m("Model/SigMemory.lean", "Elem.zeroArg", "the room that append leaves is not empty", ["C54"], "def Elem.zeroArg : Elem := .arg [] .nil", "def Elem.zeroArg : Elem := .arg [120] .nil")
m("Model/SigMemory.lean", "SigRefs.addObj", "new objects are numbered from the front", ["C54"], "{ r with objs := r.objs ++ [p] }", "{ r with objs := p :: r.objs }")
m("Model/SigMemory.lean", "basicTypeM", "unsafe.Pointer is a basic type", ["C54"], "  if k = .unsafePointer then namedTypeM (newSymbol (b! \"unsafe\") (b! \"Pointer\"))\n  else if k.isBasic then pure (.basic k)", "  if k = .unsafePointer then pure (.basic k)\n  else if k.isBasic then pure (.basic k)")
m("Model/SigMemory.lean", "sliceTypeM", "a nil element type is accepted", ["C54"], "def sliceTypeM (t : MType) : MM MType := if t = .nil then panic else pure (.slice t)", "def sliceTypeM (t : MType) : MM MType := pure (.slice t)")
m(T, "SpecRef.parent", "constants and variables have no file", ["C42"], "  | .value p => (deref h.values p).bind fun s => .ok s.parent\n", "  | .value _ => .ok none\n")
m(T, "SpecRef.parent", "functions have no file", ["C42"], "  | .func p => (deref h.funcs p).bind fun s => .ok s.parent\n\n/-- `InterfaceEmbed.qualify`", "  | .func _ => .ok none\n\n/-- `InterfaceEmbed.qualify`")
m(T, "TVal.ifacePtr", "only pointers to pointers to interfaces change their type", ["C42"], "  | .ptr (.iface _ _) => true\n  | .ptr v => v.ifacePtr\n", "  | .ptr v => v.ifacePtr\n")
m(T, "TVal.inIface", "what is in an interface is not taken out", ["C42"], "def TVal.inIface : TVal → TVal\n  | .iface _ v => v\n", "def TVal.inIface : TVal → TVal\n")
m("Model/TemplateText.lean", "runNodes", "only the first part of a template is executed", ["C61"], "    | some x, some y => some (x ++ y)\n    | _, _ => none\nend", "    | some x, some _ => some x\n    | _, _ => none\nend")
m(TY, "bothDir", "channels for both directions have the number of receive-only channels", ["C16"], "def bothDir : ChanDir := 3", "def bothDir : ChanDir := 1")
m(TY, "recvDir", "send-only and receive-only channels are swapped", ["C17"], "def recvDir : ChanDir := 1", "def recvDir : ChanDir := 2")
m(TY, "sliceType", "slices of nil are made", ["C16"], "def sliceType (t : TypeName) : Outcome TypeName :=\n  if t.isNil then .panic else .ok (.slice t)", "def sliceType (t : TypeName) : Outcome TypeName :=\n  .ok (.slice t)")
m(TY, "isNil", "basic types are nil", ["C16"], "def isNil : TypeName → Bool\n  | .nil => true\n", "def isNil : TypeName → Bool\n  | .nil => true\n  | .basic _ => true\n")
m(I, "prefixForPackage", "an alias is written if the name is not the last part of the path", ["C64", "C05"], "isAlias := decide (p ≠ packageName)", "isAlias := decide (p ≠ pathBase importPath)")
m(I, "prefixForPackage", "a package without name is imported without alias", ["C64", "C07"], "isAlias := decide (p ≠ packageName)", "isAlias := decide (p ≠ (if packageName = [] then p else packageName))")
m(I, "prefixForPackage", "the name is the one that was given, even if it is taken", ["C14", "C07"], "importsByPath := i.importsByPath.set importPath\n                { packageName := p,", "importsByPath := i.importsByPath.set importPath\n                { packageName := if packageName = [] then p else packageName,")
m(I, "aliasLoop", "numbers are not counted up", ["C03", "C14"], "aliasLoop pathsByName pkgBase fuel (pkgBase ++ decDigits suffix) (suffix + 1)", "aliasLoop pathsByName pkgBase fuel (p ++ decDigits suffix) (suffix + 1)")
m("Model/Code.lean", "qualifySymOrRef", "the symbol keeps its package name", ["C66", "C33"], "  | .symbol s => do\n    let s' ← ensureImported s\n    pure (.symbol s')\n  | .method m => do", "  | .symbol s => do\n    let _ ← ensureImported s\n    pure (.symbol s)\n  | .method m => do")
m("Model/Code.lean", "qualifySymOrRef", "the method loses its type", ["C66", "C33"], "pure (.mrefPtr { type := s', method := m.method })", "pure (.symbol { s' with name := m.method })")
m("Model/Code.lean", "qualifyArg", "a package of go/types keeps its name", ["C66", "C33"], "    let n ← registerPackage p\n    pure (.str n)", "    let _ ← registerPackage p\n    pure (.str p.name)")
m("Model/Fmt.lean", "MethodReference.string", "a method is written with its package only", ["C66", "C33"], "m.type.string ++ b! \".\" ++ m.method", "m.type.package.name ++ b! \".\" ++ m.method")
m("Model/GoTypes.lean", "typeNameForGoType", "maps are turned around", ["C65", "C23"], "", "")
TT = "Model/TemplateText.lean"
m(TT, "TVal.truth", "empty slices are true", ["C61"], "  | .slice vs | .array vs => !vs.isEmpty\n", "  | .array vs => !vs.isEmpty\n")
m(TT, "TVal.truth", "empty maps are true", ["C61"], "  | .map es => !es.isEmpty\n", "")
m(TT, "TVal.truth", "scalars are always true", ["C61"], "  | .scalar id => sc.truth id\n", "")
m(TT, "TVal.truth", "structs are never true", ["C61"], "  | .map es => !es.isEmpty\n  | _ => true\n", "  | .map es => !es.isEmpty\n  | .struct _ => false\n  | _ => true\n")
m(TT, "TVal.truth", "values of gopoet's own types are not true", ["C61"], "  | .map es => !es.isEmpty\n  | _ => true\n", "  | .map es => !es.isEmpty\n  | .package p => p.name != []\n  | _ => true\n")
m(TT, "TScope.get", "paths always begin at the dot", ["C61"], "    | some n => σ.vars[n]?).bind", "    | some _ => some σ.dot).bind")
m(TT, "TScope.push", "new variables come first", ["C61"], "vars := σ.vars ++ [x] }", "vars := x :: σ.vars }")
m(TT, "TNode.run", "else of a loop is written after it", ["C61"], "if y.2.isEmpty then runNodes sc leaf other σ\n    else joinAll", "if y.2.isEmpty then some []\n    else joinAll")
m(TT, "TNode.run", "the branches of if are swapped", ["C61"], "if x.2.truth sc then runNodes sc leaf body (σ.push x) else runNodes sc leaf other (σ.push x)", "if x.2.truth sc then runNodes sc leaf other (σ.push x) else runNodes sc leaf body (σ.push x)")
m(TT, "TNode.run", "if changes the dot", ["C61"], "if x.2.truth sc then runNodes sc leaf body (σ.push x) else runNodes sc leaf other (σ.push x)", "if x.2.truth sc then runNodes sc leaf body ⟨x, σ.vars ++ [x]⟩ else runNodes sc leaf other (σ.push x)")
m(TT, "TNode.run", "with does not change the dot", ["C61"], "if x.2.truth sc then runNodes sc leaf body ⟨x, σ.vars ++ [x]⟩ else", "if x.2.truth sc then runNodes sc leaf body (σ.push x) else")
m(TT, "TNode.run", "a variable cannot be used in the rest", ["C61"], "fun x => runNodes sc leaf rest (σ.push x)", "fun _ => runNodes sc leaf rest σ")
m(TT, "TNode.run", "with changes the dot after else, too", ["C61"], "if x.2.truth sc then runNodes sc leaf body ⟨x, σ.vars ++ [x]⟩ else runNodes sc leaf other (σ.push x)", "if x.2.truth sc then runNodes sc leaf body ⟨x, σ.vars ++ [x]⟩ else runNodes sc leaf other ⟨x, σ.vars ++ [x]⟩")

CX = "Model/Text.lean"
CF = "Model/File.lean"
m(CX, "writeComment", "no space after the slashes", ["C75", "C76"], "fun line => b! \"// \" ++ line", "fun line => b! \"//\" ++ line")
m(CX, "writeComment", "lines without text have no slashes", ["C76"], "fun line => b! \"// \" ++ line ++ b! \"\\n\"", "fun line => if line = [] then b! \"\\n\" else b! \"// \" ++ line ++ b! \"\\n\"")
m(CX, "writeComment", "an empty line follows", ["C76"], "fun line => b! \"// \" ++ line ++ b! \"\\n\"\n", "fun line => b! \"// \" ++ line ++ b! \"\\n\\n\"\n")
m(CF, "InterfaceEmbed.text", "embedded interfaces have no comment", ["C76"], "  writeComment e.comment ++ e.type.string ++ b! \"\\n\"", "  e.type.string ++ b! \"\\n\"")
m(CF, "InterfaceMethod.text", "the comment follows the method", ["C76"], "pure (writeComment m.comment ++ m.name ++ s ++ b! \"\\n\")", "pure (m.name ++ s ++ b! \"\\n\" ++ writeComment m.comment)")
m(CF, "FieldSpec.text", "embedded fields have no comment", ["C76"], "pure (writeComment f.comment ++ (if f.name ≠ []", "pure ((if f.name ≠ [] then writeComment f.comment else []) ++ (if f.name ≠ []")
m(CF, "ValueDecl.text", "the comment of a single spec is that of the declaration", ["C76"], "      pure (writeComment c.comment ++ d.kind.keyword ++ b! \" \" ++ body)", "      pure (writeComment d.comment ++ d.kind.keyword ++ b! \" \" ++ body)")
m(CF, "TypeDecl.text", "the comment of a single type is written after the keyword", ["C76"], "      let body ← t.text env h fuel false\n      pure (writeComment t.comment ++ b! \"type \" ++ body)", "      let body ← t.text env h fuel true\n      pure (b! \"type \" ++ body)")
m(CF, "TypeDecl.text", "the comment of a group is written in it", ["C76"], "    pure (writeComment d.comment ++ b! \"type (\\n\" ++ body ++ b! \")\\n\")", "    pure (b! \"type (\\n\" ++ writeComment d.comment ++ body ++ b! \")\\n\")")
m(CF, "FuncSpec.text", "the comment of a function is written in it", ["C76"], "  pure (writeComment f.comment ++ b! \"func \"\n", "  pure (b! \"func \" ++ writeComment f.comment\n")
m(CF, "FuncSpec.text", "methods have no comments", ["C76"], "  pure (writeComment f.comment ++ b! \"func \"\n", "  pure ((if f.receiver = none then writeComment f.comment else []) ++ b! \"func \"\n")
m(CF, "GoFile.text", "the comments of the file and of the package are swapped", ["C76"], "  pure (writeComment f.fileComment ++ (if f.fileComment ≠ [] then b! \"\\n\" else [])\n    ++ writeComment f.packageComment", "  pure (writeComment f.packageComment ++ (if f.packageComment ≠ [] then b! \"\\n\" else [])\n    ++ writeComment f.fileComment")
m(CF, "GoFile.text", "no empty line after the package clause", ["C76"], "f.packageClause env.isPrint ++ b! \"\\n\"\n    ++ (f.imports", "f.packageClause env.isPrint\n    ++ (f.imports")
m(CF, "GoFile.text", "elements are not separated by empty lines", ["C76"], ".bind fun s => .ok (b! \"\\n\" ++ s))\n    f.elements", ".bind fun s => .ok s)\n    f.elements")
m(CF, "GoFile.packageClause", "the import comment is on a line of its own", ["C76"], "++ b! \" // import \" ++ quote tbl f.canonicalImportPath", "++ b! \"\\n// import \" ++ quote tbl f.canonicalImportPath")

m(TT, "TVal.items", "maps are gone through in any order", ["C61"], "(sortByKey sc l).map (·.2))", "l.map (·.2))")
m(TT, "TVal.items", "the values of a map are addressable in loops", ["C61"], "fun l => (false, (sortByKey", "fun l => (true, (sortByKey")
m(TT, "insertByKey", "keys in the opposite order", ["C61"], "if sc.le x.1 y.1 then x :: y :: l else y :: insertByKey sc x l", "if sc.le x.1 y.1 then y :: insertByKey sc x l else x :: y :: l")
m(TT, "insertByKey", "an entry is lost", ["C61"], "if sc.le x.1 y.1 then x :: y :: l else", "if sc.le x.1 y.1 then x :: l else")
m(TT, "numberedFrom", "all elements have the same number", ["C61"], "numberedFrom sc (n + 1) vs", "numberedFrom sc n vs")
m(TT, "TNode.run", "the variables of a loop are swapped", ["C61"], "σ.vars ++ [(false, e.1), (y.1, e.2)]⟩) y.2", "σ.vars ++ [(y.1, e.2), (false, e.1)]⟩) y.2")
m(TT, "TNode.run", "the variables of the caller can be used in the template that is called", ["C61"], "runNodes sc leaf body ⟨x, [x]⟩", "runNodes sc leaf body ⟨x, σ.vars⟩")
m(TT, "TNode.run", "the branches of a test are swapped", ["C61"], "if b then runNodes sc leaf body σ else runNodes sc leaf other σ", "if b then runNodes sc leaf other σ else runNodes sc leaf body σ")
m(TT, "TCond.eval", "or is and", ["C61"], "(x || ·)", "(x && ·)")
m(TT, "TCond.eval", "not is ignored", ["C61"], "(c.eval sc σ).map (!·)", "c.eval sc σ")
m(TT, "TVal.equal", "values in interfaces cannot be compared", ["C61"], "  match (v.inInterfaces false).2, (w.inInterfaces false).2 with", "  match v, w with")
m(TT, "TVal.size", "maps have no length", ["C61"], "  | .map es => some es.length\n", "")

IT = "Model/ImportText.lean"
m(IT, "ImportSpec.string", "the alias is left out", ["C77"], "s.packageAlias ++ b! \" \" ++ quote tbl s.importPath", "quote tbl s.importPath")
m(IT, "ImportSpec.string", "no space after the alias", ["C77"], "s.packageAlias ++ b! \" \" ++ quote", "s.packageAlias ++ quote")
m(IT, "ImportSpec.string", "a space without alias", ["C77"], "then quote tbl s.importPath else", "then b! \" \" ++ quote tbl s.importPath else")
m(IT, "ImportSpec.string", "the path is not quoted", ["C77"], "b! \" \" ++ quote tbl s.importPath", "b! \" \" ++ b! \"\\\"\" ++ s.importPath ++ b! \"\\\"\"")

# programs (C78)
FI = "Model/File.lean"
OU = "Model/Output.lean"
BU = "Model/Builders.lean"
m(FI, "newTypeSpec", "a type made from a spec without name has its fields only", ["C39", "C78"], "structBody := t.structBody, interfaceBody := t.interfaceBody }", "structBody := t.structBody }")
m(FI, "newTypeSpec", "a type made from a spec without name takes over the comment as name", ["C39", "C78"], "{ name := typeName, underlying := u, structBody := t.structBody", "{ name := t.name, underlying := u, structBody := t.structBody")
m(FI, "collectFields", "fields whose type is a spec get no type", ["C39", "C78"], "      | .spec q => (deref h'.types q).bind fun s => s.toTypeName h')\n    let r ← collectFields", "      | .spec q => (deref h'.types q).bind fun _ => .ok .nil)\n    let r ← collectFields")
m(FI, "fieldTypeText", "a spec without name inside a struct is written as an empty struct", ["C39", "C78"], "    if t.name = [] then sub t\n", "    if t.name = [] then sub { t with structBody := [] }\n")
m(BU, "CodeCall.exec", "AddCode takes over the block's first element only", ["C53", "C78"], "pure (cb.addCode code, h)", "pure (cb.addCode (code.take 1), h)")
m(BU, "newBlock", "the block is also given to the next object", ["C53", "C78"], "pure (h.next, { r.2 with blocks := upd r.2.blocks h.next r.1 })", "pure (h.next, { r.2 with blocks := upd (upd r.2.blocks h.next r.1) (h.next + 1) r.1 })")
m(BU, "funcCodeCall", "code of a method goes to the front", ["C53", "C78"], "{ f with code := r.1 }", "{ f with code := if f.receiver.isSome then r.1.reverse else r.1 }")
m(BU, "SigCall.exec", "a second result replaces the first", ["C53", "C78"], "| .addResult name t => s.addResult name t", "| .addResult name t => (Signature.mk s.args [] s.isVariadic).addResult name t")
m(OU, "writeGoFiles", "the first error is only reported at the end", ["C38", "C58"], "      | (some e, es') => (.ok (some (.external e)), h, es')\n", "      | (some e, es') => match writeGoFiles env fuel w outFn ps h es' with\n        | (.ok none, h', es'') => (.ok (some (.external e)), h', es'')\n        | r => r\n")
m(OU, "writeGoFiles", "files are named by their package", ["C58", "C78"], "outFn es (filepathJoin f.package.importPath f.name)", "outFn es (filepathJoin f.package.importPath (f.packageName ++ b! \".go\"))")
m(OU, "fileSystemOpen", "the directory is made below the root only", ["C38", "C58"], "  let dir := filepathDir fullPath\n", "  let dir := filepathDir path\n")
m(OU, "fileSystemOpen", "the path is opened without the root", ["C38", "C58", "C78"], "| none => plainOpen w (es ++ [.mkdirAll dir none]) fullPath", "| none => plainOpen w (es ++ [.mkdirAll dir none]) path")
m(OU, "emit", "an empty text is not written", ["C38", "C58"], "  | some formatted =>\n", "  | some [] => (none, es)\n  | some formatted =>\n")
m(OU, "writeAndClose", "errors of Close are returned", ["C38"], "  | (.ok r, h', es') => (.ok r, h', es' ++", "  | (.ok r, h', es') => (.ok (r <|> (w.closeAnswer es' writer).map .external), h', es' ++")
m(OU, "writeGoFilesToGoPath", "GOPATH is split at slashes", ["C38"], "splitOn listSeparator gopath", "splitOn slash gopath")

m(FI, "newTypeSpec", "a type made from a spec without name takes over its comment", ["C39", "C78"], "{ name := typeName, underlying := u, structBody := t.structBody", "{ comment := t.comment, name := typeName, underlying := u, structBody := t.structBody")
m(FI, "allocMethods", "methods of a literal are commented with their name", ["C39", "C78"], "methods := upd h.methods h.next { name := m.name,", "methods := upd h.methods h.next { comment := m.name, name := m.name,")
m(FI, "FileElem.setParent", "adding a type to a file removes its comment", ["C53", "C78"], "setParents (fun s : TypeSpec => { s with parent := some f })", "setParents (fun s : TypeSpec => { s with comment := [], parent := some f })")
m(FI, "newTypeAlias", "an alias is commented as one", ["C39", "C78"], "{ ts with isAlias := true }", "{ ts with isAlias := true, comment := b! \"alias\" }")
m(FI, "declAddValue", "adding to a group removes its comment", ["C53", "C78"], "{ D with specs := D.specs ++ [s] }", "{ D with comment := [], specs := D.specs ++ [s] }")
m(BU, "methodSetComment", "a second comment of a method is appended", ["C53", "C78"], "fun m => { m with comment }", "fun m => { m with comment := m.comment ++ comment }")

# definitions without wrong versions so far
RF = "Model/Reflect.lean"
SM = "Model/SigMemory.lean"
TT = "Model/TemplateText.lean"
TY = "Model/Types.lean"
TE = "Model/Template.lean"
m(RF, "RT.kind", "arrays are taken for slices", ["C24", "C65"], "  | .array _ _ => .array\n  | .chan", "  | .array _ _ => .slice\n  | .chan")
m(RF, "RT.name", "pointers have a name", ["C24", "C65"], "  | .defined _ _ n => n\n  | _ => []\n", "  | .defined _ _ n => n\n  | .ptr _ => b! \"ptr\"\n  | _ => []\n")
m(SM, "SigRefs.obj", "a missing signature is the first one", ["C54"], "  match r.objs[k]? with\n  | some p => pure p\n  | none => panic", "  match r.objs[k]? with\n  | some p => pure p\n  | none => pure 0")
m(SM, "SigRefs.methods", "methods are in reverse order", ["C54"], "    let l ← r.methods l\n    pure (.method name s :: l)", "    let l ← r.methods l\n    pure (l ++ [.method name s])")
m(TT, "keyedEntries", "entries are in reverse order", ["C61"], "(keyedEntries es).map fun l => (a, e) :: l", "(keyedEntries es).map fun l => l ++ [(a, e)]")
m(TT, "TArg.get", "constants are compared with the next one", ["C61"], "| .const id => some (.scalar id)", "| .const id => some (.scalar (id + 1))")
m(TY, "Symbol.zero", "the zero symbol has a name", ["C15"], "def Symbol.zero : Symbol := ⟨⟨[], []⟩, []⟩", "def Symbol.zero : Symbol := ⟨⟨[], []⟩, b! \"?\"⟩")
m(TE, "qualifyDataEntries", "the entries of a map are visited from the back", ["C42", "C43"], "    let (es', c) ← qualifyDataEntries h es\n    if c then", "    let (es', c) ← qualifyDataEntries h es.reverse\n    if c then")

# NaN in keys
TN = "Model/TemplateNaN.lean"
m(TN, "TVal.hasNaN", "NaN in an interface is equal to itself", ["C79"], "  | .iface _ v => v.hasNaN nan\n", "  | .iface _ _ => false\n")
m(TN, "TVal.hasNaN", "pointers to NaN are not equal to themselves", ["C79"], "  | .array vs => hasNaNElems nan vs\n  | _ => false", "  | .array vs => hasNaNElems nan vs\n  | .ptr _ => nan 0\n  | _ => false")
m(TN, "hasNaNFields", "all fields must be NaN", ["C79"], "| (_, v) :: fs => v.hasNaN nan || hasNaNFields nan fs", "| (_, v) :: fs => v.hasNaN nan && hasNaNFields nan fs")
m(TN, "qualifyDataEntriesNaN", "a changed key with NaN does not count", ["C79"], "pure (es', ck || c)", "pure (es', c)")
m(TN, "qualifyDataEntriesNaN", "entries at NaN are copied", ["C79"], "pure (es', ck || c)", "pure ((k', v) :: es', ck || c)")
m(TN, "qualifyDataEntriesNaN", "values at NaN are visited", ["C79"], "        let (es', c) ← qualifyDataEntriesNaN nan h es\n        pure (es', ck || c)", "        let _ ← qualifyDataNaN nan h false v\n        let (es', c) ← qualifyDataEntriesNaN nan h es\n        pure (es', ck || c)")
m(TN, "qualifyDataEntriesNaN", "a pointer to an interface in a key with NaN does not panic", ["C79"], "      if ck && k.ifacePtr then IM.panic", "      if false && k.ifacePtr then IM.panic")
m(TN, "qualifyDataEntriesNaN", "keys with NaN are not visited", ["C79"], "    let (k', ck) ← qualifyDataNaN nan h false k\n", "    let (k', ck) ← if k.hasNaN nan then pure (k, false) else qualifyDataNaN nan h false k\n")
m(TN, "qualifyDataNaN", "an unchanged map is copied, too", ["C79"], "    else pure (.map es, false)", "    else pure (.map (es.filter fun e => !e.1.hasNaN nan), false)")
m(TN, "qualifyDataElemsNaN", "the loop stops at a map with NaN", ["C79"], "      pure (v' :: vs', c')", "      pure (if v.hasNaN nan then [v'] else v' :: vs', c')")
m(TN, "qualifyTemplateDataNaN", "the data is not addressable", ["C79"], "qualifyDataNaN nan h true (.iface acceptsAll data)", "qualifyDataNaN nan h false (.iface acceptsAll data)")

RM = "Model/ReceiverMemory.lean"
m(RM, "RecvCall.exec", "NewMethod copies the receiver", ["C80"], ".ok { m with heap := (newFunc m.heap none name).2, refs := upd m.refs m.heap.next (some k) }", ".ok { m with heap := (newFunc m.heap m.recvs[k]? name).2 }")
m(RM, "RecvCall.exec", "NewMethod forgets the receiver", ["C80"], "refs := upd m.refs m.heap.next (some k)", "refs := upd m.refs m.heap.next none")
m(RM, "RecvCall.exec", "NewMethod takes the receiver made last", ["C80"], "refs := upd m.refs m.heap.next (some k)", "refs := upd m.refs m.heap.next (some (m.recvs.length - 1))")
m(RM, "RecvCall.exec", "a change makes a new receiver", ["C80"], ".ok { m with recvs := m.recvs.set k r } else", ".ok { m with recvs := m.recvs ++ [r] } else")
m(RM, "RecvCall.exec", "a new receiver gets the address of the first", ["C80"], "recvs := m.recvs ++ [r] }", "recvs := r :: m.recvs }")
m(RM, "RecvHeap.receiver", "the receiver in the heap is preferred", ["C80"], "  | some (some k) => m.recvs[k]?", "  | some (some k) => own.or m.recvs[k]?")
m(RM, "RecvHeap.receiver", "functions without pointer have no receiver", ["C80"], "  | none => own\n", "  | none => none\n")
m(RM, "RecvHeap.seen", "the receivers are not read through the pointers", ["C80"], "{ f with receiver := m.receiver p f.receiver }", "f")
m("Model/Builders.lean", "newFunc", "NewMethod ignores the receiver", ["C47", "C80"], "funcs := upd h.funcs h.next { name, receiver }", "funcs := upd h.funcs h.next { name, receiver := none }")

M = [x for x in M if x["old"]]
for n, x in enumerate(M): x["id"] = f"M{n+1:03d}"
json.dump(M, open("/verif/seeded/mutants.json", "w"), indent=1, ensure_ascii=False)
print(len(M))
bad = 0
for x in M:
    c = open("/verif/lean/Verif/" + x["file"]).read().count(x["old"])
    if c != x["count"]: print(x["id"], x["def"], x["edit"], c); bad += 1
