import Verif.Model.Fmt
import Verif.Model.Template
/-!
# Model of code.go: building, qualifying and rendering code blocks
-/

namespace Gopoet
open Imports

/-- Code that reads and writes the heap and one `Imports` value. What was written before a panic
persists. -/
def QM (α : Type) := Heap → Imports → Outcome α × Heap × Imports

namespace QM

def ret {α} (a : α) : QM α := fun h i => (.ok a, h, i)
def panic {α} : QM α := fun h i => (.panic, h, i)
def hang {α} : QM α := fun h i => (.hang, h, i)

def bind {α β} (x : QM α) (f : α → QM β) : QM β := fun h i =>
  match x h i with
  | (.ok a, h', i') => f a h' i'
  | (.panic, h', i') => (.panic, h', i')
  | (.hang, h', i') => (.hang, h', i')

instance : Monad QM where
  pure := ret
  bind := bind

/-- A call that does not change the heap. -/
def lift {α} (x : Heap → IM α) : QM α := fun h i =>
  match x h i with
  | (o, i') => (o, h, i')

/-- Reading through a pointer. -/
def read {α} (m : Heap → Ptr → Option α) (p : Ptr) : QM α := fun h i => (deref (m h) p, h, i)

/-- A write. -/
def modify (f : Heap → Heap) : QM Unit := fun h i => (.ok (), f h, i)

/-- `for _, x := range l { f(x) }` -/
def forEach {α} (f : α → QM Unit) : List α → QM Unit
  | [] => ret ()
  | a :: l => bind (f a) fun _ => forEach f l

end QM

/-- The argument that replaces an argument standing for a symbol or a method reference — code.go:183-192
and 200-209. A method reference is only stored if its symbol changed. -/
def qualifySymOrRef (orig : Arg) : SymbolOrMethodRef → IM Arg
  | .symbol s => do
    let s' ← ensureImported s
    pure (.symbol s')
  | .method m => do
    let s' ← ensureImported m.type
    if s' ≠ m.type then pure (.mrefPtr { type := s', method := m.method }) else pure orig

/-- The loop body of `line.qualify` — code.go:138-214: what `l.args[i]` is afterwards. -/
def qualifyArg (h : Heap) : Arg → IM Arg
  | .package a => do
    let p ← registerPackage a
    if p ≠ a.name then pure (.package { name := p, importPath := a.importPath })
    else pure (.package a)
  | .packagePtr a => do
    let p ← registerPackage a
    if p ≠ a.name then pure (.package { name := p, importPath := a.importPath })
    else pure (.packagePtr a)
  | .symbol s => do
    let s' ← ensureImported s
    pure (.symbol s')
  | .symbolPtr s => do
    let s' ← ensureImported s
    pure (.symbol s')
  | .mref m => qualifySymOrRef (.mref m) (.method m)
  | .mrefPtr m => qualifySymOrRef (.mrefPtr m) (.method m)
  | .sig s => do
    let s' ← ensureAllTypesImported s
    pure (.sigPtr s')
  | .sigPtr s => do
    let s' ← ensureAllTypesImported s
    pure (.sigPtr s')
  | .typeName t => do
    let t' ← ensureTypeImported t
    pure (.typeName t')
  | .value p => do
    let s ← IM.lift ((deref h.values p).bind (·.toSymbol h))
    qualifySymOrRef (.value p) (.symbol s)
  | .typeSpec p => do
    let s ← IM.lift ((deref h.types p).bind (·.toSymbol h))
    qualifySymOrRef (.typeSpec p) (.symbol s)
  | .ifaceMethod p => do
    let m ← IM.lift ((deref h.methods p).bind (·.toMethodRef h))
    qualifySymOrRef (.ifaceMethod p) (.method m)
  | .func p => do
    let sm ← IM.lift ((deref h.funcs p).bind (·.toSymbol h))
    qualifySymOrRef (.func p) sm
  | .reflectType t _ => do
    let t ← IM.lift (typeNameForReflectType t)
    let t' ← ensureTypeImported t
    pure (.typeName t')
  | .goType t _ => do
    let t ← IM.lift (typeNameForGoType t)
    let t' ← ensureTypeImported t
    pure (.typeName t')
  | .goObject o s => do
    let sm ← IM.lift (symbolForGoObject o)
    qualifySymOrRef (.goObject o s) sm
  | .goPackage g _ => do
    let p ← IM.lift (packageForGoType (some g))
    let n ← registerPackage p
    pure (.str n)
  | a => pure a

/-- `line.qualify` — code.go:137-215: the argument slice is changed in place, element by element. -/
def qualifyArgList (h : Heap) : List Arg → Imports → Outcome Unit × List Arg × Imports
  | [], i => (.ok (), [], i)
  | a :: l, i =>
    match qualifyArg h a i with
    | (.ok a', i') =>
      match qualifyArgList h l i' with
      | (o, l', i'') => (o, a' :: l', i'')
    | (.panic, i') => (.panic, a :: l, i')
    | (.hang, i') => (.hang, a :: l, i')

/-- `codeElement.qualify` — code.go:137-215 (`line`) and 233-235 (`templ`). -/
def CodeElem.qualify : CodeElem → QM Unit
  | .line _ p => fun h i =>
    match h.args p with
    | none => (.panic, h, i)
    | some l =>
      match qualifyArgList h l i with
      | (o, l', i') => (o, { h with args := upd h.args p l' }, i')
  | .templ p => QM.bind (QM.read (·.templs) p) fun t =>
    QM.bind (QM.lift fun h => qualifyTemplateData h t.data) fun d =>
    QM.modify fun h => { h with templs := upd h.templs p { t with data := d } }

/-- `CodeBlock.qualify` — code.go:112-116. -/
def qualifyCode (cb : CodeBlock) : QM Unit := QM.forEach CodeElem.qualify cb

/-- `codeElement.writeTo` — code.go:133-135 (`line`) and 226-231 (`templ`): the text appended. -/
def CodeElem.text (env : Env) (h : Heap) : CodeElem → Outcome GoString
  | .line format p => do
    let args ← deref h.args p
    pure (fprintf env h format args)
  | .templ p => do
    let t ← deref h.templs p
    match env.exec h t.templ t.data with
    | some s => pure s
    | none => .panic

/-- The texts of a list of things, one after the other. -/
def concatText {α} (f : α → Outcome GoString) : List α → Outcome GoString
  | [] => .ok []
  | a :: l => do
    let x ← f a
    let y ← concatText f l
    pure (x ++ y)

/-- `CodeBlock.writeTo` — code.go:118-122. -/
def codeText (env : Env) (h : Heap) (cb : CodeBlock) : Outcome GoString :=
  concatText (CodeElem.text env h) cb

/-! ### Building code blocks

The block is given by value; the functions return the new block (the methods of `*CodeBlock` and
`*FuncSpec` store it back). The argument slice of a new line is allocated. -/

/-- A fresh slice of format arguments. -/
def Heap.allocArgs (h : Heap) (args : List Arg) : Ptr × Heap :=
  (h.next, { h with args := upd h.args h.next args, next := h.next + 1 })

/-- `CodeBlock.Printf` — code.go:50-53. -/
def CodeBlock.printf (cb : CodeBlock) (format : GoString) (args : List Arg) (h : Heap) :
    CodeBlock × Heap :=
  (cb ++ [.line format (h.allocArgs args).1], (h.allocArgs args).2)

/-- `CodeBlock.Printlnf` — code.go:58-60. -/
def CodeBlock.printlnf (cb : CodeBlock) (format : GoString) (args : List Arg) (h : Heap) :
    CodeBlock × Heap :=
  cb.printf (format ++ b! "\n") args h

/-- `CodeBlock.Print` — code.go:37-39. -/
def CodeBlock.print (cb : CodeBlock) (text : GoString) (h : Heap) : CodeBlock × Heap :=
  cb.printf (b! "%s") [.str text] h

/-- `CodeBlock.Println` — code.go:43-45. -/
def CodeBlock.println (cb : CodeBlock) (text : GoString) (h : Heap) : CodeBlock × Heap :=
  cb.printlnf (b! "%s") [.str text] h

/-- `CodeBlock.RenderCode` — code.go:70-73. -/
def CodeBlock.renderCode (cb : CodeBlock) (t : Nat) (data : TVal) (h : Heap) : CodeBlock × Heap :=
  (cb ++ [.templ h.next],
    { h with templs := upd h.templs h.next { templ := t, data }, next := h.next + 1 })

/-- `CodeBlock.AddCode` — code.go:77-80. -/
def CodeBlock.addCode (cb code : CodeBlock) : CodeBlock := cb ++ code

end Gopoet
