import Verif.Model.File
/-!
# Model of the constructors and the chained methods of model.go and code.go

Each function returns the new heap (the Go methods return their receiver, for chaining); a nil receiver
panics. A constructor returns the address of the new object too. Slices that are passed as variadic
arguments are taken by value: Go keeps the slice itself, so a caller that passes `s...` and then
writes to `s` changes the object, which is not represented.
-/

namespace Gopoet

/-- Changes what is at an address; a nil pointer panics. -/
def modAt {α : Type} (m : Ptr → Option α) (p : Ptr) (f : α → α) : Outcome (Ptr → Option α) :=
  match m p with
  | some a => .ok (upd m p (f a))
  | none => .panic

/-! ### Consts and vars -/

/-- `NewConst` and `NewVar` — model.go:526-528 and 733-735. -/
def newValue (h : Heap) (kind : ValueKind) (names : List GoString) : Ptr × Heap :=
  (h.next, { h with values := upd h.values h.next { kind, names }, next := h.next + 1 })

/-- `ConstSpec.SetComment` and `VarSpec.SetComment` — model.go:534-537 and 741-744. -/
def valueSetComment (h : Heap) (p : Ptr) (comment : GoString) : Outcome Heap := do
  let m ← modAt h.values p fun c => { c with comment }
  pure { h with values := m }

/-- `ConstSpec.SetType` and `VarSpec.SetType` — model.go:541-544 and 748-751. -/
def valueSetType (h : Heap) (p : Ptr) (t : TypeRef) : Outcome Heap := do
  let m ← modAt h.values p fun c => { c with type := t }
  pure { h with values := m }

/-- `SetInitializer` — model.go:558-561 and 765-768; a nil block removes the initializer. -/
def valueSetInitializer (h : Heap) (p : Ptr) (b : Option Ptr) : Outcome Heap := do
  let m ← modAt h.values p fun c => { c with init := b }
  pure { h with values := m }

/-! ### Code blocks -/

/-- A call of a method that adds to a code block. -/
inductive CodeCall where
  | print (text : GoString)
  | println (text : GoString)
  | printf (format : GoString) (args : List Arg)
  | printlnf (format : GoString) (args : List Arg)
  | renderCode (templ : Nat) (data : TVal)
  | addCode (block : Ptr)

/-- What the methods of `CodeBlock` do — code.go:37-80. -/
def CodeCall.exec (cb : CodeBlock) (h : Heap) : CodeCall → Outcome (CodeBlock × Heap)
  | .print text => .ok (cb.print text h)
  | .println text => .ok (cb.println text h)
  | .printf format args => .ok (cb.printf format args h)
  | .printlnf format args => .ok (cb.printlnf format args h)
  | .renderCode t data => .ok (cb.renderCode t data h)
  | .addCode b => do
    let code ← deref h.blocks b
    pure (cb.addCode code, h)

/-- `&CodeBlock{}`, and the functions `Print`, `Println`, `Printf`, `Printlnf` and `RenderCode` —
code.go:84-110 — which call the method on a new block. -/
def newBlock (h : Heap) (call : Option CodeCall) : Outcome (Ptr × Heap) :=
  let h' : Heap := { h with blocks := upd h.blocks h.next [], next := h.next + 1 }
  match call with
  | none => .ok (h.next, h')
  | some c => do
    let r ← c.exec [] h'
    pure (h.next, { r.2 with blocks := upd r.2.blocks h.next r.1 })

/-- A method of `*CodeBlock` — code.go:37-80. -/
def blockCall (h : Heap) (p : Ptr) (c : CodeCall) : Outcome Heap := do
  let cb ← deref h.blocks p
  let r ← c.exec cb h
  pure { r.2 with blocks := upd r.2.blocks p r.1 }

/-- `Initialize` — model.go:551-554 and 758-761: sets a new block made by `Printf`. -/
def valueInitialize (h : Heap) (p : Ptr) (format : GoString) (args : List Arg) : Outcome Heap := do
  let r ← newBlock h (some (.printf format args))
  valueSetInitializer r.2 p (some r.1)

/-! ### Declarations -/

/-- `NewConstDecl` and `NewVarDecl` — model.go:414-416 and 650-652. -/
def newValueDecl (h : Heap) (kind : ValueKind) (specs : List Ptr) : Ptr × Heap :=
  (h.next, { h with valueDecls := upd h.valueDecls h.next { kind, specs }, next := h.next + 1 })

/-- `ConstDecl.SetComment` and `VarDecl.SetComment` — model.go:445-448 and 681-684. -/
def valueDeclSetComment (h : Heap) (p : Ptr) (comment : GoString) : Outcome Heap := do
  let m ← modAt h.valueDecls p fun d => { d with comment }
  pure { h with valueDecls := m }

/-- `NewTypeDecl` — model.go:856-858. -/
def newTypeDecl (h : Heap) (types : List Ptr) : Ptr × Heap :=
  (h.next, { h with typeDecls := upd h.typeDecls h.next { types }, next := h.next + 1 })

/-- `TypeDecl.SetComment` — model.go:887-890. -/
def typeDeclSetComment (h : Heap) (p : Ptr) (comment : GoString) : Outcome Heap := do
  let m ← modAt h.typeDecls p fun d => { d with comment }
  pure { h with typeDecls := m }

/-! ### Types, fields and interface elements -/

/-- `TypeSpec.SetComment` — model.go:1059-1062. -/
def typeSetComment (h : Heap) (p : Ptr) (comment : GoString) : Outcome Heap := do
  let m ← modAt h.types p fun t => { t with comment }
  pure { h with types := m }

/-- `NewField` — model.go:1198-1200. -/
def newField (h : Heap) (name : GoString) (t : TypeRef) : Ptr × Heap :=
  (h.next, { h with fields := upd h.fields h.next { name, type := t }, next := h.next + 1 })

/-- `FieldSpec.SetComment` — model.go:1204-1207. -/
def fieldSetComment (h : Heap) (p : Ptr) (comment : GoString) : Outcome Heap := do
  let m ← modAt h.fields p fun f => { f with comment }
  pure { h with fields := m }

/-- `FieldSpec.SetTag` — model.go:1211-1214. -/
def fieldSetTag (h : Heap) (p : Ptr) (tag : GoString) : Outcome Heap := do
  let m ← modAt h.fields p fun f => { f with tag }
  pure { h with fields := m }

/-- `NewInterfaceEmbed` — model.go:1277-1279. -/
def newInterfaceEmbed (h : Heap) (s : Symbol) : Ptr × Heap :=
  (h.next, { h with embeds := upd h.embeds h.next { type := s }, next := h.next + 1 })

/-- `InterfaceEmbed.SetComment` — model.go:1284-1287. -/
def embedSetComment (h : Heap) (p : Ptr) (comment : GoString) : Outcome Heap := do
  let m ← modAt h.embeds p fun e => { e with comment }
  pure { h with embeds := m }

/-- `NewInterfaceMethod` — model.go:1322-1324. -/
def newInterfaceMethod (h : Heap) (name : GoString) : Ptr × Heap :=
  (h.next, { h with
    methods := upd h.methods h.next { name, signature := ⟨[], [], false⟩ }, next := h.next + 1 })

/-- `InterfaceMethod.SetComment` — model.go:1329-1332. -/
def methodSetComment (h : Heap) (p : Ptr) (comment : GoString) : Outcome Heap := do
  let m ← modAt h.methods p fun m => { m with comment }
  pure { h with methods := m }

/-- A call of a method that changes a signature. -/
inductive SigCall where
  | addArg (name : GoString) (t : TypeName)
  | addResult (name : GoString) (t : TypeName)
  | setVariadic (b : Bool)

/-- What these methods do — types.go:133-154. -/
def SigCall.exec (s : Signature) : SigCall → Signature
  | .addArg name t => s.addArg name t
  | .addResult name t => s.addResult name t
  | .setVariadic b => s.setVariadic b

/-- `InterfaceMethod.AddArg`, `AddResult` and `SetVariadic` — model.go:1339-1361. -/
def methodSigCall (h : Heap) (p : Ptr) (c : SigCall) : Outcome Heap := do
  let m ← modAt h.methods p fun m => { m with signature := c.exec m.signature }
  pure { h with methods := m }

/-! ### Functions -/

/-- `NewFunc` and `NewMethod` — model.go:1436-1444. The receiver is taken by value: Go keeps the
pointer. -/
def newFunc (h : Heap) (receiver : Option ReceiverSpec) (name : GoString) : Ptr × Heap :=
  (h.next, { h with funcs := upd h.funcs h.next { name, receiver }, next := h.next + 1 })

/-- `FuncSpec.SetComment` — model.go:1448-1451. -/
def funcSetComment (h : Heap) (p : Ptr) (comment : GoString) : Outcome Heap := do
  let m ← modAt h.funcs p fun f => { f with comment }
  pure { h with funcs := m }

/-- `FuncSpec.AddArg`, `AddResult` and `SetVariadic` — model.go:1497-1519. -/
def funcSigCall (h : Heap) (p : Ptr) (c : SigCall) : Outcome Heap := do
  let m ← modAt h.funcs p fun f => { f with signature := c.exec f.signature }
  pure { h with funcs := m }

/-- `FuncSpec.Print`, `Println`, `Printf`, `Printlnf`, `RenderCode` and `AddCode` —
model.go:1523-1564. -/
def funcCodeCall (h : Heap) (p : Ptr) (c : CodeCall) : Outcome Heap := do
  let f ← deref h.funcs p
  let r ← c.exec f.code h
  pure { r.2 with funcs := upd r.2.funcs p { f with code := r.1 } }

/-! ### Files -/

/-- `GoFile.NumElements` — model.go:325-327. -/
def GoFile.numElements (f : GoFile) : Nat := f.elements.length

/-- `GoFile.ElementAt` — model.go:331-333: an index out of range panics. -/
def GoFile.elementAt (f : GoFile) (k : Nat) : Outcome FileElem :=
  match f.elements[k]? with
  | some e => .ok e
  | none => .panic

/-- `NewGoFile` — model.go:282-292 — as an object. -/
def allocFile (h : Heap) (fileName packagePath packageName : GoString) : Outcome (Ptr × Heap) := do
  let f ← newGoFile fileName packagePath packageName
  pure (h.next, { h with files := upd h.files h.next f, next := h.next + 1 })

/-- The comments and the canonical path of a file are exported fields — model.go:146-157. -/
inductive FileField where
  | fileComment
  | packageComment
  | canonicalImportPath
  deriving DecidableEq, Repr

/-- An assignment to such a field. -/
def GoFile.assign (f : GoFile) (s : GoString) : FileField → GoFile
  | .fileComment => { f with fileComment := s }
  | .packageComment => { f with packageComment := s }
  | .canonicalImportPath => { f with canonicalImportPath := s }

/-- An assignment to a field of the file at an address. -/
def fileAssign (h : Heap) (p : Ptr) (k : FileField) (s : GoString) : Outcome Heap := do
  let m ← modAt h.files p fun f => f.assign s k
  pure { h with files := m }

end Gopoet
