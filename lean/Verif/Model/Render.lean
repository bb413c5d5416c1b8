import Verif.Model.Types
import Verif.Model.Quote
/-!
# Model of the rendering of types — types.go:801-972

`bytes.Buffer` is modelled by the string written so far; writes to it cannot fail. The Unicode
table behind `strconv.Quote` is the parameter `tbl`.
-/

namespace Gopoet

/-- the name of a basic type — types.go:804-810 and 822-829. -/
def basicText (k : ReflectKind) : GoString :=
  if k = .uint8 then b! "byte"
  else if k = .int32 then b! "rune"
  else k.kindString

/-- a symbol, package first — types.go:830-836 (named types) and 896-900 (embedded interfaces). -/
def symbolText (s : Symbol) : GoString :=
  (if s.package.name ≠ [] then s.package.name ++ b! "." else []) ++ s.name

/-- a struct tag as literal — types.go:879-886; also model.go:1246-1253 (`FieldSpec.writeTo`). -/
def tagText (tbl : Nat → Bool) (tag : GoString) : GoString :=
  if canBackquote tag then b! "`" ++ tag ++ b! "`" else quote tbl tag

/-- the "are there names" scan — types.go:915-921 and 944-950. -/
def anyNamed (args : List ArgType) : Bool := args.any (fun a => decide (a.name ≠ []))

/-- the name part of a parameter — types.go:926-933 and 958-965. -/
def paramName (named : Bool) (name : GoString) : GoString :=
  if named then (if name ≠ [] then name ++ b! " " else b! "_ ") else []

mutual
/-- `typeNameToBuffer` — types.go:820-911: the text appended to the buffer. `tn.Kind()` on a nil
interface panics. The recursive calls are made in the order of the code. -/
def typeNameToBuffer (tbl : Nat → Bool) : TypeName → Outcome GoString
  | .nil => .panic
  | .basic k => .ok (basicText k)
  | .named s => .ok (symbolText s)
  | .map e k => do
    let a ← typeNameToBuffer tbl k
    let b ← typeNameToBuffer tbl e
    pure (b! "map[" ++ a ++ b! "]" ++ b)
  | .slice e => do
    let a ← typeNameToBuffer tbl e
    pure (b! "[]" ++ a)
  | .array e n => do
    let a ← typeNameToBuffer tbl e
    pure (b! "[" ++ decInt n ++ b! "]" ++ a)
  | .ptr e => do
    let a ← typeNameToBuffer tbl e
    pure (b! "*" ++ a)
  | .chan e d => do
    let a ← typeNameToBuffer tbl e
    pure ((if d = recvDir then b! "<-" else []) ++ b! "chan"
      ++ (if d = sendDir then b! "<-" else []) ++ b! " " ++ a)
  | .func s => do
    let a ← signatureToBuffer tbl s
    pure (b! "func" ++ a)
  | .struct fs => do
    let a ← fieldsToBuffer tbl 0 fs
    pure (b! "struct{" ++ a ++ b! "}")
  | .interface ms es => do
    let a ← methodsToBuffer tbl 0 ms
    pure (b! "interface{" ++ embedsToBuffer 0 es ++ a ++ b! "}")
/-- the loop over the fields of a struct — types.go:868-888; `i` is the loop index. -/
def fieldsToBuffer (tbl : Nat → Bool) (i : Nat) : List FieldType → Outcome GoString
  | [] => .ok []
  | ⟨name, t, tag⟩ :: l => do
    let a ← typeNameToBuffer tbl t
    let b ← fieldsToBuffer tbl (i + 1) l
    pure ((if i > 0 then b! "; " else []) ++ (if name ≠ [] then name ++ b! " " else []) ++ a
      ++ (if tag ≠ [] then b! " " ++ tagText tbl tag else []) ++ b)
/-- the loop over the methods of an interface — types.go:902-908. -/
def methodsToBuffer (tbl : Nat → Bool) (i : Nat) : List MethodType → Outcome GoString
  | [] => .ok []
  | ⟨name, s⟩ :: l => do
    let a ← signatureToBuffer tbl s
    let b ← methodsToBuffer tbl (i + 1) l
    pure ((if i > 0 then b! "; " else []) ++ name ++ a ++ b)
/-- `signatureToBuffer` — types.go:913-972. -/
def signatureToBuffer (tbl : Nat → Bool) : Signature → Outcome GoString
  | ⟨args, results, variadic⟩ => do
    let a ← argsToBuffer tbl variadic (anyNamed args) args.length 0 args
    let r ← argsToBuffer tbl false (anyNamed results) results.length 0 results
    let paren := decide (results.length > 1) || anyNamed results
    pure (b! "(" ++ a ++ b! ")" ++
      (if results.length > 0 then
        b! " " ++ (if paren then b! "(" else []) ++ r ++ (if paren then b! ")" else [])
       else []))
/-- the loops over parameters and results — types.go:922-940 and 954-967. `n` is `len(sig.Args)`
and `i` the loop index; results are never variadic. -/
def argsToBuffer (tbl : Nat → Bool) (variadic named : Bool) (n i : Nat) :
    List ArgType → Outcome GoString
  | [] => .ok []
  | ⟨name, t⟩ :: l =>
    Outcome.bind
      (if variadic && i == n - 1 then
        Outcome.bind (elemToBuffer tbl t) fun a => .ok (b! "..." ++ a)
       else typeNameToBuffer tbl t) fun a =>
    Outcome.bind (argsToBuffer tbl variadic named n (i + 1) l) fun b =>
    .ok ((if i > 0 then b! ", " else []) ++ paramName named name ++ a ++ b)
/-- `typeNameToBuffer(arg.Type.Elem(), b)` — types.go:936: `Elem()` panics on a nil interface and
returns nil for types without element type, on which `typeNameToBuffer` panics. -/
def elemToBuffer (tbl : Nat → Bool) : TypeName → Outcome GoString
  | .ptr e => typeNameToBuffer tbl e
  | .slice e => typeNameToBuffer tbl e
  | .array e _ => typeNameToBuffer tbl e
  | .map e _ => typeNameToBuffer tbl e
  | .chan e _ => typeNameToBuffer tbl e
  | _ => .panic
/-- the loop over embedded interfaces — types.go:892-901. -/
def embedsToBuffer (i : Nat) : List Symbol → GoString
  | [] => []
  | s :: l => (if i > 0 then b! "; " else []) ++ symbolText s ++ embedsToBuffer (i + 1) l
end

/-- `elemToBuffer` is rendering after the accessor `Elem`. -/
theorem elemToBuffer_eq (tbl : Nat → Bool) (t : TypeName) :
    elemToBuffer tbl t = t.elem.bind (typeNameToBuffer tbl) := by
  cases t <;> simp [elemToBuffer, TypeName.elem, Outcome.bind, typeNameToBuffer]

/-- `typeNameToString` (the `String` method of every type) — types.go:801-818. -/
def TypeName.string (tbl : Nat → Bool) (t : TypeName) : Outcome GoString :=
  match t with
  | .nil => .panic
  | .basic k =>
    .ok (if k = .uint8 then b! "byte" else if k = .int32 then b! "rune" else k.kindString)
  | .named s => .ok s.string
  | t => typeNameToBuffer tbl t

end Gopoet
