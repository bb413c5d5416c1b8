import Verif.Model.Code
/-!
# Model of model.go: specs, declarations and files

`writeTo` methods are modelled by the text they append to the buffer. `fuel` bounds the depth of
`*TypeSpec`s nested in fields (Go recurses without bound if a `*TypeSpec` contains itself).
-/

namespace Gopoet
open Imports

/-! ### Qualification -/

/-- `qualify` of an interface element — model.go:1306-1310 and 1411-1418. -/
def IfaceElem.qualify : IfaceElem → QM Unit
  | .embed p => QM.bind (QM.read (·.embeds) p) fun e =>
    QM.bind (QM.lift fun _ => e.qualify) fun r =>
    QM.modify fun h => { h with embeds := upd h.embeds p r.1 }
  | .method p => QM.bind (QM.read (·.methods) p) fun m =>
    QM.bind (QM.lift fun _ => m.qualify) fun r =>
    QM.modify fun h => { h with methods := upd h.methods p r.1 }

/-- the loop body for a field of `TypeSpec.qualify` — model.go:1130-1137 — where `sub` is the
recursive call. -/
def qualifyField (sub : Ptr → QM Unit) (p : Ptr) : QM Unit :=
  QM.bind (QM.read (·.fields) p) fun f =>
  match f.type with
  | .nil => QM.ret ()
  | .name t => QM.bind (QM.lift fun _ => ensureTypeImported t) fun t' =>
    QM.modify fun h => { h with fields := upd h.fields p { f with type := .name t' } }
  | .spec q => sub q

/-- `TypeSpec.qualify` — model.go:1128-1141. -/
def qualifySpec : (fuel : Nat) → Ptr → QM Unit
  | 0, _ => QM.hang
  | fuel + 1, p =>
    QM.bind (QM.read (·.types) p) fun ts =>
    QM.bind (QM.lift fun _ => ensureTypeImported ts.underlying) fun u =>
    QM.bind (QM.modify fun h => { h with types := upd h.types p { ts with underlying := u } }) fun _ =>
    QM.bind (QM.forEach (qualifyField (qualifySpec fuel)) ts.structBody) fun _ =>
    QM.forEach IfaceElem.qualify ts.interfaceBody

/-- `qualifyType` — model.go:483-495. -/
def qualifyTypeRef (fuel : Nat) : TypeRef → QM TypeRef
  | .nil => QM.ret .nil
  | .name t => QM.bind (QM.lift fun _ => ensureTypeImported t) fun t' => QM.ret (.name t')
  | .spec p => QM.bind (qualifySpec fuel p) fun _ => QM.ret (.spec p)

/-- the loop body of `ConstDecl.qualify` — model.go:475-480 — and `VarDecl.qualify` —
model.go:711-716. -/
def qualifyValue (fuel : Nat) (p : Ptr) : QM Unit :=
  QM.bind (QM.read (·.values) p) fun c =>
  QM.bind (qualifyTypeRef fuel c.type) fun t =>
  QM.bind (QM.modify fun h => { h with values := upd h.values p { c with type := t } }) fun _ =>
  match c.init with
  | none => QM.ret ()
  | some b => QM.bind (QM.read (·.blocks) b) qualifyCode

/-- `FuncSpec.qualify` — model.go:1628-1634. -/
def qualifyFunc (p : Ptr) : QM Unit :=
  QM.bind (QM.read (·.funcs) p) fun f =>
  QM.bind (QM.lift fun _ => ensureAllTypesImported f.signature) fun sig =>
  QM.bind (QM.modify fun h => { h with funcs := upd h.funcs p { f with signature := sig } }) fun _ =>
  qualifyCode f.code

/-- `FileElement.qualify`. -/
def FileElem.qualify (fuel : Nat) : FileElem → QM Unit
  | .values p => QM.bind (QM.read (·.valueDecls) p) fun d =>
    QM.forEach (qualifyValue fuel) d.specs
  | .types p => QM.bind (QM.read (·.typeDecls) p) fun d =>
    QM.forEach (qualifySpec fuel) d.types
  | .func p => qualifyFunc p

/-! ### Rendering -/

/-- The keyword of a declaration. -/
def ValueKind.keyword : ValueKind → GoString
  | .const => b! "const"
  | .var => b! "var"

/-- the `%v` of a `TypeNameOrSpec` — model.go:624 and 830. -/
def TypeRef.arg : TypeRef → Option Arg
  | .nil => none
  | .name t => some (.typeName t)
  | .spec p => some (.typeSpec p)

/-- `ConstSpec.writeTo` — model.go:618-631 — and `VarSpec.writeTo` — model.go:824-837. -/
def ValueSpec.text (env : Env) (h : Heap) (c : ValueSpec) (includeComment : Bool) :
    Outcome GoString := do
  let init ← (match c.init with
    | none => .ok []
    | some b => (deref h.blocks b).bind fun cb =>
      (codeText env h cb).bind fun s => .ok (b! " = " ++ s))
  pure ((if includeComment then writeComment c.comment else [])
    ++ joinWith (b! ", ") c.names
    ++ (match c.type.arg with
        | none => []
        | some a => fprintf env h (b! " %v") [a])
    ++ init ++ b! "\n")

/-- `ConstDecl.writeTo` — model.go:452-466 — and `VarDecl.writeTo` — model.go:688-702.
`c.Consts[0]` panics if there is none. -/
def ValueDecl.text (env : Env) (h : Heap) (d : ValueDecl) : Outcome GoString :=
  if d.specs.length > 1 ∨ d.comment ≠ [] then do
    let body ← concatText (fun p => (deref h.values p).bind fun c => c.text env h true) d.specs
    pure (writeComment d.comment ++ d.kind.keyword ++ b! " (\n" ++ body ++ b! ")\n")
  else
    match d.specs with
    | [] => .panic
    | p :: _ => do
      let c ← deref h.values p
      let body ← c.text env h false
      pure (writeComment c.comment ++ d.kind.keyword ++ b! " " ++ body)

/-- the tag of a field — model.go:1246-1253. -/
def fieldTagText (tbl : Nat → Bool) (tag : GoString) : GoString :=
  if tag ≠ [] then b! " " ++ tagText tbl tag else []

/-- `InterfaceEmbed.writeTo` — model.go:1297-1300. -/
def InterfaceEmbed.text (e : InterfaceEmbed) : GoString :=
  writeComment e.comment ++ e.type.string ++ b! "\n"

/-- `InterfaceMethod.writeTo` — model.go:1400-1405. -/
def InterfaceMethod.text (env : Env) (m : InterfaceMethod) : Outcome GoString := do
  let s ← signatureToBuffer env.isPrint m.signature
  pure (writeComment m.comment ++ m.name ++ s ++ b! "\n")

/-- `InterfaceElement.writeTo`. -/
def IfaceElem.text (env : Env) (h : Heap) : IfaceElem → Outcome GoString
  | .embed p => (deref h.embeds p).bind fun e => .ok e.text
  | .method p => (deref h.methods p).bind fun m => m.text env

mutual
/-- `NewTypeSpec("", t).writeUnderlying(b)` — model.go:1233-1234: for a struct or interface type the
spec made by `NewTypeSpec` (model.go:959-995) has one uncommented element per field, embed and
method. -/
def underlyingText (env : Env) (h : Heap) : TypeName → Outcome GoString
  | .struct fs => do
    let a ← fieldTypesText env h fs
    pure (b! " struct {\n" ++ a ++ b! "}\n")
  | .interface ms es => do
    let a ← concatText (fun e => .ok (InterfaceEmbed.text { type := e })) es
    let b ← concatText (fun m => InterfaceMethod.text env
      { name := m.name, signature := m.signature }) ms
    pure (b! " interface {\n" ++ (a ++ b) ++ b! "}\n")
  | t => do
    let a ← typeNameToBuffer env.isPrint t
    pure (b! " " ++ a ++ b! "\n")
/-- the fields of such a spec, each written by `FieldSpec.writeTo` — model.go:1223-1256. A nil type
writes nothing. -/
def fieldTypesText (env : Env) (h : Heap) : List FieldType → Outcome GoString
  | [] => .ok []
  | ⟨name, t, tag⟩ :: l => do
    let a ← (match t with
      | .nil => .ok []
      | .struct fs => underlyingText env h (.struct fs)
      | .interface ms es => underlyingText env h (.interface ms es)
      | t => .ok (fprintf env h (b! "%v") [.typeName t]))
    let b ← fieldTypesText env h l
    pure ((if name ≠ [] then name ++ b! " " else []) ++ a ++ fieldTagText env.isPrint tag ++ b! "\n"
      ++ b)
end

/-- the type of a field — model.go:1230-1244 — where `sub` is the call of `writeUnderlying`. -/
def fieldTypeText (env : Env) (h : Heap) (sub : TypeSpec → Outcome GoString) :
    TypeRef → Outcome GoString
  | .nil => .ok []
  | .name t => do
    let k ← t.kind
    if k = .struct ∨ k = .interface then underlyingText env h t
    else pure (fprintf env h (b! "%v") [.typeName t])
  | .spec p => do
    let t ← deref h.types p
    if t.name = [] then sub t
    else do
      let s ← t.toSymbol h
      pure (fprintf env h (b! "%v") [.symbol s])

/-- `FieldSpec.writeTo` — model.go:1223-1256. -/
def FieldSpec.text (env : Env) (h : Heap) (sub : TypeSpec → Outcome GoString) (f : FieldSpec) :
    Outcome GoString := do
  let t ← fieldTypeText env h sub f.type
  pure (writeComment f.comment ++ (if f.name ≠ [] then f.name ++ b! " " else []) ++ t
    ++ fieldTagText env.isPrint f.tag ++ b! "\n")

/-- `TypeSpec.writeUnderlying` — model.go:1155-1174. -/
def writeUnderlying (env : Env) (h : Heap) : (fuel : Nat) → TypeSpec → Outcome GoString
  | 0, _ => .hang
  | fuel + 1, t =>
    match t.underlying with
    | .nil => .panic
    | .struct _ => do
      let a ← concatText (fun p => (deref h.fields p).bind fun f =>
        f.text env h (writeUnderlying env h fuel)) t.structBody
      pure (b! " struct {\n" ++ a ++ b! "}\n")
    | .interface _ _ => do
      let a ← concatText (IfaceElem.text env h) t.interfaceBody
      pure (b! " interface {\n" ++ a ++ b! "}\n")
    | u => do
      let a ← typeNameToBuffer env.isPrint u
      pure (b! " " ++ a ++ b! "\n")

/-- `TypeSpec.writeTo` — model.go:1143-1153. -/
def TypeSpec.text (env : Env) (h : Heap) (fuel : Nat) (t : TypeSpec) (includeComment : Bool) :
    Outcome GoString := do
  let u ← writeUnderlying env h fuel t
  pure ((if includeComment then writeComment t.comment else []) ++ t.name ++ b! " "
    ++ (if t.isAlias then b! "= " else []) ++ u)

/-- `TypeDecl.writeTo` — model.go:894-908. -/
def TypeDecl.text (env : Env) (h : Heap) (fuel : Nat) (d : TypeDecl) : Outcome GoString :=
  if d.types.length > 1 ∨ d.comment ≠ [] then do
    let body ← concatText (fun p => (deref h.types p).bind fun t => t.text env h fuel true) d.types
    pure (writeComment d.comment ++ b! "type (\n" ++ body ++ b! ")\n")
  else
    match d.types with
    | [] => .panic
    | p :: _ => do
      let t ← deref h.types p
      let body ← t.text env h fuel false
      pure (writeComment t.comment ++ b! "type " ++ body)

/-- the receiver — model.go:1604-1616. -/
def ReceiverSpec.text (r : ReceiverSpec) : GoString :=
  b! "(" ++ (if r.name ≠ [] then r.name ++ b! " " else []) ++ (if r.isPointer then b! "*" else [])
    ++ r.type ++ b! ") "

/-- `FuncSpec.writeTo` — model.go:1601-1622. -/
def FuncSpec.text (env : Env) (h : Heap) (f : FuncSpec) : Outcome GoString := do
  let sig ← signatureToBuffer env.isPrint f.signature
  let code ← codeText env h f.code
  pure (writeComment f.comment ++ b! "func "
    ++ (match f.receiver with
        | none => []
        | some r => r.text)
    ++ f.name ++ sig ++ b! " {\n" ++ code ++ b! "}\n")

/-- `FileElement.writeTo`. -/
def FileElem.text (env : Env) (h : Heap) (fuel : Nat) : FileElem → Outcome GoString
  | .values p => (deref h.valueDecls p).bind fun d => d.text env h
  | .types p => (deref h.typeDecls p).bind fun d => d.text env h fuel
  | .func p => (deref h.funcs p).bind fun f => f.text env h

/-- An import statement — model.go:360-364. -/
def ImportSpec.statement (tbl : Nat → Bool) (s : ImportSpec) : GoString :=
  if s.packageAlias ≠ [] then
    b! "import " ++ s.packageAlias ++ b! " " ++ quote tbl s.importPath ++ b! "\n"
  else b! "import " ++ quote tbl s.importPath ++ b! "\n"

/-- The package clause — model.go:352-356. -/
def GoFile.packageClause (tbl : Nat → Bool) (f : GoFile) : GoString :=
  if f.canonicalImportPath ≠ [] then
    b! "package " ++ f.packageName ++ b! " // import " ++ quote tbl f.canonicalImportPath ++ b! "\n"
  else b! "package " ++ f.packageName ++ b! "\n"

/-- `GoFile.writeTo` — model.go:343-375. -/
def GoFile.text (env : Env) (h : Heap) (fuel : Nat) (f : GoFile) : Outcome GoString := do
  let body ← concatText (fun e => (FileElem.text env h fuel e).bind fun s => .ok (b! "\n" ++ s))
    f.elements
  pure (writeComment f.fileComment ++ (if f.fileComment ≠ [] then b! "\n" else [])
    ++ writeComment f.packageComment ++ f.packageClause env.isPrint ++ b! "\n"
    ++ (f.imports.importSpecs.map (ImportSpec.statement env.isPrint)).flatten ++ body)

/-! ### Files -/

/-- The first part of `WriteGoFile` — model.go:198-200: qualifies the elements with the imports of
the file. -/
def qualifyFile (fuel : Nat) (p : Ptr) (h : Heap) : Outcome Unit × Heap :=
  match h.files p with
  | none => (.panic, h)
  | some f =>
    match QM.forEach (FileElem.qualify fuel) f.elements h f.imports with
    | (o, h', i') => (o, { h' with files := upd h'.files p { f with imports := i' } })

/-- `WriteGoFile` — model.go:196-216 — up to the formatter: qualification and `f.writeTo(&buf)`. -/
def renderFile (env : Env) (fuel : Nat) (p : Ptr) (h : Heap) : Outcome GoString × Heap :=
  match qualifyFile fuel p h with
  | (.ok (), h') => ((deref h'.files p).bind fun f => f.text env h' fuel, h')
  | (.panic, h') => (.panic, h')
  | (.hang, h') => (.hang, h')

/-- `NewGoFile` — model.go:282-292. -/
def newGoFile (fileName packagePath packageName : GoString) : Outcome GoFile :=
  if pathBase fileName ≠ fileName then .panic
  else if filepathExt fileName ≠ b! ".go" then .panic
  else .ok { name := fileName, packageName, imports := newImportsFor packagePath }

/-- `setParent` — model.go:468-472, 704-708, 910-914, 1122-1124 and 1624-1626. -/
def setParents {α} (set : α → α) (m : Ptr → Option α) : List Ptr → Outcome (Ptr → Option α)
  | [] => .ok m
  | p :: ps =>
    match m p with
    | none => .panic
    | some a => setParents set (upd m p (set a)) ps

/-- `FileElement.setParent`. -/
def FileElem.setParent (f : Ptr) (h : Heap) : FileElem → Outcome Heap
  | .values p => do
    let d ← deref h.valueDecls p
    let m ← setParents (fun s : ValueSpec => { s with parent := some f }) h.values d.specs
    pure { h with values := m }
  | .types p => do
    let d ← deref h.typeDecls p
    let m ← setParents (fun s : TypeSpec => { s with parent := some f }) h.types d.types
    pure { h with types := m }
  | .func p => do
    let m ← setParents (fun s : FuncSpec => { s with parent := some f }) h.funcs [p]
    pure { h with funcs := m }

/-- `GoFile.AddElement` — model.go:297-301. -/
def addElement (h : Heap) (f : Ptr) (e : FileElem) : Outcome Heap := do
  let h' ← e.setParent f h
  let file ← deref h'.files f
  pure { h' with files := upd h'.files f { file with elements := file.elements ++ [e] } }

/-- `GoFile.AddConst` and `GoFile.AddVar` — model.go:306-308 and 313-315. -/
def addValue (h : Heap) (f : Ptr) (kind : ValueKind) (s : Ptr) : Outcome Heap :=
  addElement { h with valueDecls := upd h.valueDecls h.next { kind, specs := [s] }
                      next := h.next + 1 } f (.values h.next)

/-- `GoFile.AddType` — model.go:320-322. -/
def addType (h : Heap) (f : Ptr) (t : Ptr) : Outcome Heap :=
  addElement { h with typeDecls := upd h.typeDecls h.next { types := [t] }
                      next := h.next + 1 } f (.types h.next)

/-- `ConstDecl.AddConst` — model.go:420-423 — and `VarDecl.AddVar` — model.go:656-659. -/
def declAddValue (h : Heap) (d s : Ptr) : Outcome Heap := do
  let D ← deref h.valueDecls d
  pure { h with valueDecls := upd h.valueDecls d { D with specs := D.specs ++ [s] } }

/-- `TypeDecl.AddType` — model.go:862-865. -/
def declAddType (h : Heap) (d t : Ptr) : Outcome Heap := do
  let D ← deref h.typeDecls d
  pure { h with typeDecls := upd h.typeDecls d { D with types := D.types ++ [t] } }

/-! ### Making type specs -/

/-- Allocates the fields of `NewTypeSpec` — model.go:965-974. -/
def allocFields (h : Heap) (parent : Ptr) : List FieldType → List Ptr × Heap
  | [] => ([], h)
  | ⟨name, t, tag⟩ :: fs =>
    let type : TypeRef := match t with
      | .nil => .nil
      | t => .name t
    let r := allocFields { h with
      fields := upd h.fields h.next { name, type, tag, parent := some parent }
      next := h.next + 1 } parent fs
    (h.next :: r.1, r.2)

/-- Allocates the embeds of `NewTypeSpec` — model.go:979-984. -/
def allocEmbeds (h : Heap) (parent : Ptr) : List Symbol → List IfaceElem × Heap
  | [] => ([], h)
  | e :: es =>
    let r := allocEmbeds { h with
      embeds := upd h.embeds h.next { type := e, parent := some parent }
      next := h.next + 1 } parent es
    (.embed h.next :: r.1, r.2)

/-- Allocates the methods of `NewTypeSpec` — model.go:985-992. -/
def allocMethods (h : Heap) (parent : Ptr) : List MethodType → List IfaceElem × Heap
  | [] => ([], h)
  | m :: ms =>
    let r := allocMethods { h with
      methods := upd h.methods h.next { name := m.name, signature := m.signature, parent := some parent }
      next := h.next + 1 } parent ms
    (.method h.next :: r.1, r.2)

/-- Stores a new `TypeSpec`. -/
def Heap.allocType (h : Heap) (t : TypeSpec) : Ptr × Heap :=
  (h.next, { h with types := upd h.types h.next t, next := h.next + 1 })

/-- `NewTypeSpec` — model.go:945-1001. -/
def newTypeSpec (h : Heap) (typeName : GoString) : TypeRef → Outcome (Ptr × Heap)
  | .nil => .panic
  | .spec p => do
    let t ← deref h.types p
    let u ← t.toTypeName h
    pure (h.allocType (if t.name = [] then
        { name := typeName, underlying := u, structBody := t.structBody, interfaceBody := t.interfaceBody }
      else { name := typeName, underlying := u }))
  | .name t =>
    match t with
    | .nil => .panic
    | .struct fs =>
      let r := allocFields { h with next := h.next + 1 } h.next fs
      .ok (h.next, { r.2 with
        types := upd r.2.types h.next { name := typeName, underlying := t, structBody := r.1 } })
    | .interface ms es =>
      let r := allocEmbeds { h with next := h.next + 1 } h.next es
      let q := allocMethods r.2 h.next ms
      .ok (h.next, { q.2 with
        types := upd q.2.types h.next
          { name := typeName, underlying := t, interfaceBody := r.1 ++ q.1 } })
    | t => .ok (h.allocType { name := typeName, underlying := t })

/-- `NewTypeAlias` — model.go:937-941. -/
def newTypeAlias (h : Heap) (typeName : GoString) (t : TypeRef) : Outcome (Ptr × Heap) := do
  let r ← newTypeSpec h typeName t
  let ts ← deref r.2.types r.1
  pure (r.1, { r.2 with types := upd r.2.types r.1 { ts with isAlias := true } })

/-- the loop of `NewStructTypeSpec` — model.go:1011-1026: sets the parents of the fields and collects
their types. -/
def collectFields (parent : Ptr) (h : Heap) : List Ptr → Outcome (List FieldType × Heap)
  | [] => .ok ([], h)
  | p :: ps => do
    let f ← deref h.fields p
    let h' : Heap := { h with fields := upd h.fields p { f with parent := some parent } }
    let t ← (match f.type with
      | .nil => .ok .nil
      | .name t => .ok t
      | .spec q => (deref h'.types q).bind fun s => s.toTypeName h')
    let r ← collectFields parent h' ps
    pure (⟨f.name, t, f.tag⟩ :: r.1, r.2)

/-- `NewStructTypeSpec` — model.go:1005-1028. -/
def newStructTypeSpec (h : Heap) (typeName : GoString) (fields : List Ptr) : Outcome (Ptr × Heap) := do
  let r ← collectFields h.next { h with next := h.next + 1 } fields
  pure (h.next, { r.2 with
    types := upd r.2.types h.next
      { name := typeName, underlying := structType r.1, structBody := fields } })

/-- the loop of `NewInterfaceTypeSpec` — model.go:1039-1050. -/
def collectElems (parent : Ptr) (h : Heap) :
    List IfaceElem → Outcome (List Symbol × List MethodType × Heap)
  | [] => .ok ([], [], h)
  | .embed p :: es => do
    let e ← deref h.embeds p
    let r ← collectElems parent
      { h with embeds := upd h.embeds p { e with parent := some parent } } es
    pure (e.type :: r.1, r.2.1, r.2.2)
  | .method p :: es => do
    let m ← deref h.methods p
    let r ← collectElems parent
      { h with methods := upd h.methods p { m with parent := some parent } } es
    pure (r.1, ⟨m.name, m.signature⟩ :: r.2.1, r.2.2)

/-- `NewInterfaceTypeSpec` — model.go:1032-1053. -/
def newInterfaceTypeSpec (h : Heap) (typeName : GoString) (elems : List IfaceElem) :
    Outcome (Ptr × Heap) := do
  let r ← collectElems h.next { h with next := h.next + 1 } elems
  pure (h.next, { r.2.2 with
    types := upd r.2.2.types h.next
      { name := typeName, underlying := interfaceType r.1 r.2.1, interfaceBody := elems } })

/-! ### Receivers and methods -/

/-- `NewReceiver` — model.go:1651-1656. -/
def newReceiver (name rcvrType : GoString) : Outcome ReceiverSpec :=
  if rcvrType = [] then .panic else .ok { name, type := rcvrType }

/-- `NewReceiverForType` — model.go:1661-1681. A nil `TypeNameOrSpec` matches no case. -/
def newReceiverForType (h : Heap) (name : GoString) : TypeRef → Outcome ReceiverSpec
  | .nil => .ok { name, type := [] }
  | .name t => do
    let k ← t.kind
    if k = .named then do
      let s ← t.symbol
      pure { name, type := s.name }
    else if k = .ptr then do
      let e ← t.elem
      let ke ← e.kind
      if ke = .named then do
        let s ← e.symbol
        pure { name, type := s.name, isPointer := true }
      else .panic
    else .panic
  | .spec p => do
    let t ← deref h.types p
    if t.name = [] then .panic else pure { name, type := t.name }

/-- `NewPointerReceiver` — model.go:1686-1688. -/
def newPointerReceiver (name rcvrType : GoString) : ReceiverSpec :=
  { name, type := rcvrType, isPointer := true }

/-- `NewPointerReceiverForType` — model.go:1693-1709. -/
def newPointerReceiverForType (h : Heap) (name : GoString) : TypeRef → Outcome ReceiverSpec
  | .nil => .ok { name, type := [], isPointer := true }
  | .name t => do
    let k ← t.kind
    if k ≠ .named then .panic
    else do
      let s ← t.symbol
      pure { name, type := s.name, isPointer := true }
  | .spec p => do
    let t ← deref h.types p
    if t.name = [] then .panic else pure { name, type := t.name, isPointer := true }

/-- `FuncSpec.ToTypeName` — model.go:1573-1597. Without receiver, the result shares its memory with the function in
Go: see `funcToTypeNameM`. -/
def FuncSpec.toTypeName (h : Heap) (f : FuncSpec) : Outcome TypeName :=
  match f.receiver with
  | none => funcTypeFromSig f.signature
  | some r =>
    match f.parent with
    | none => .panic
    | some p => do
      let pkg ← packageAt h p
      let named := namedType { name := r.type, package := pkg }
      let rt ← (if r.isPointer then pointerType named else .ok named)
      funcTypeFromSig { f.signature with args := ⟨r.name, rt⟩ :: f.signature.args }

/-- `InterfaceMethod.ToTypeName` — model.go:1367-1377. -/
def InterfaceMethod.toTypeName (h : Heap) (m : InterfaceMethod) : Outcome TypeName :=
  match m.parent with
  | none => .panic
  | some p => do
    let t ← deref h.types p
    let rt ← t.toTypeName h
    funcTypeFromSig { m.signature with args := ⟨[], rt⟩ :: m.signature.args }

end Gopoet
