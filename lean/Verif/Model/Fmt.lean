import Verif.Model.Heap
import Verif.Model.Text
/-!
# `fmt.Fprintf` as used for code (code.go:133-135) and for types in declarations

Described exactly: the verbs `%s %v %d %q` without flags, width, precision or argument index, `%%`,
and missing arguments. Everything else (other verbs, flags, surplus arguments, arguments whose
`String` method panics) is the parameter `fmtOther` of the environment.
-/

namespace Gopoet

/-- `Symbol.String` etc. for method references — model.go:1727-1729. -/
def MethodReference.string (m : MethodReference) : GoString := m.type.string ++ b! "." ++ m.method

/-- The package of the file at an address, as `c.parent.Package()`. -/
def packageAt (h : Heap) (f : Ptr) : Outcome Package := do
  let f ← deref h.files f
  pure f.package

/-- `ConstSpec.SymbolAt` — model.go:608-616 — and `VarSpec.SymbolAt` — model.go:814-822. -/
def ValueSpec.symbolAt (h : Heap) (c : ValueSpec) (i : Nat) : Outcome Symbol :=
  match c.parent with
  | none => .panic
  | some f =>
    match c.names[i]? with
    | none => .panic
    | some n => do
      let p ← packageAt h f
      pure { name := n, package := p }

/-- `ConstSpec.ToSymbol` — model.go:568-573 — and `VarSpec.ToSymbol` — model.go:774-779. -/
def ValueSpec.toSymbol (h : Heap) (c : ValueSpec) : Outcome Symbol :=
  if c.names.length ≠ 1 then .panic else c.symbolAt h 0

/-- the loop of `ConstSpec.String` — model.go:587-590 -/
def symbolStrings (h : Heap) (c : ValueSpec) : List Nat → Outcome (List GoString)
  | [] => .ok []
  | i :: is => do
    let s ← c.symbolAt h i
    let ss ← symbolStrings h c is
    pure (s.string :: ss)

/-- `ConstSpec.String` — model.go:581-599 — and `VarSpec.String` — model.go:787-805. -/
def ValueSpec.string (h : Heap) (c : ValueSpec) : Outcome GoString :=
  if c.names.length ≠ 1 then
    match c.parent with
    | none => .ok (joinWith (b! ", ") c.names)
    | some _ => do
      let syms ← symbolStrings h c (List.range c.names.length)
      pure (joinWith (b! ", ") syms)
  else
    match c.parent with
    | none => .ok (c.names.headD [])
    | some _ => do
      let s ← c.toSymbol h
      pure s.string

/-- `TypeSpec.ToSymbol` — model.go:1069-1080. -/
def TypeSpec.toSymbol (h : Heap) (t : TypeSpec) : Outcome Symbol :=
  if t.name = [] then .panic
  else
    match t.parent with
    | none => .panic
    | some f => do
      let p ← packageAt h f
      pure { name := t.name, package := p }

/-- `TypeSpec.String` — model.go:1088-1096. -/
def TypeSpec.string (tbl : Nat → Bool) (h : Heap) (t : TypeSpec) : Outcome GoString :=
  if t.name = [] then t.underlying.string tbl
  else
    match t.parent with
    | none => .ok t.name
    | some _ => do
      let s ← t.toSymbol h
      pure s.string

/-- `TypeSpec.ToTypeName` — model.go:1104-1109. -/
def TypeSpec.toTypeName (h : Heap) (t : TypeSpec) : Outcome TypeName :=
  if t.name = [] then .ok t.underlying
  else do
    let s ← t.toSymbol h
    pure (namedType s)

/-- `FuncSpec.ToSymbol` — model.go:1459-1477. -/
def FuncSpec.toSymbol (h : Heap) (f : FuncSpec) : Outcome SymbolOrMethodRef :=
  match f.parent with
  | none => .panic
  | some p => do
    let pkg ← packageAt h p
    match f.receiver with
    | some r => pure (.method { type := { name := r.type, package := pkg }, method := f.name })
    | none => pure (.symbol { name := f.name, package := pkg })

/-- `String` of a `SymbolOrMethodRef`. -/
def SymbolOrMethodRef.string : SymbolOrMethodRef → GoString
  | .symbol s => s.string
  | .method m => m.string

/-- `FuncSpec.String` — model.go:1486-1491. -/
def FuncSpec.string (h : Heap) (f : FuncSpec) : Outcome GoString :=
  if f.parent = none ∨ f.receiver ≠ none then .ok f.name
  else do
    let s ← f.toSymbol h
    pure s.string

/-- `InterfaceMethod.ToMethodRef` — model.go:1381-1389. -/
def InterfaceMethod.toMethodRef (h : Heap) (m : InterfaceMethod) : Outcome MethodReference :=
  match m.parent with
  | none => .panic
  | some t => do
    let t ← deref h.types t
    let s ← t.toSymbol h
    pure { type := s, method := m.name }

/-- What `fmt` works with: the text of a string or of a value with a `String` method, a number, or
something else. -/
inductive Shown where
  | str (s : GoString)
  | int (n : Int)
  | other
  deriving DecidableEq, Repr

/-- A call of a `String` method by `fmt`, which recovers from panics. -/
def Shown.ofString : Outcome GoString → Shown
  | .ok s => .str s
  | _ => .other

/-- How `fmt` sees an argument. `Signature` has no `String` method. -/
def Arg.shown (tbl : Nat → Bool) (h : Heap) : Arg → Shown
  | .str s => .str s
  | .int n => .int n
  | .package p | .packagePtr p => .str p.string
  | .symbol s | .symbolPtr s => .str s.string
  | .mref m | .mrefPtr m => .str m.string
  | .sig _ | .sigPtr _ => .other
  | .typeName t => .ofString (t.string tbl)
  | .value p => .ofString ((deref h.values p).bind (·.string h))
  | .typeSpec p => .ofString ((deref h.types p).bind (·.string tbl h))
  | .ifaceMethod p => .ofString ((deref h.methods p).bind fun m => .ok m.name)
  | .func p => .ofString ((deref h.funcs p).bind (·.string h))
  | .ifaceEmbed p => .ofString ((deref h.embeds p).bind fun e => .ok e.type.string)
  | .field p => .ofString ((deref h.fields p).bind fun f => .ok f.name)
  | .reflectType _ s | .goType _ s | .goObject _ s | .goPackage _ s => .str s
  | .other _ => .other

/-- One verb with its argument. -/
def fmtVerb (tbl : Nat → Bool) (verb : UInt8) : Shown → Option GoString
  | .str s =>
    if verb = 115 ∨ verb = 118 then some s            -- %s %v
    else if verb = 113 then some (quote tbl s)        -- %q
    else none
  | .int n => if verb = 100 ∨ verb = 118 then some (decInt n) else none   -- %d %v
  | .other => none

/-- `fmt.Sprintf` for the formats described above. -/
def sprintf (tbl : Nat → Bool) : GoString → List Shown → Option GoString
  | [], [] => some []
  | [], _ :: _ => none
  | [c], args => if c = 37 then none else if args.isEmpty then some [c] else none
  | c :: v :: rest, args =>
    if c = 37 then
      if v = 37 then (sprintf tbl rest args).map (37 :: ·)
      else
        match args with
        | [] =>
          if v = 115 ∨ v = 118 ∨ v = 100 ∨ v = 113 then
            (sprintf tbl rest []).map (b! "%!" ++ [v] ++ b! "(MISSING)" ++ ·)
          else none
        | a :: args =>
          match fmtVerb tbl v a, sprintf tbl rest args with
          | some x, some y => some (x ++ y)
          | _, _ => none
    else (sprintf tbl (v :: rest) args).map (c :: ·)

/-- `fmt.Fprintf(b, format, args...)`: the text appended. -/
def fprintf (env : Env) (h : Heap) (format : GoString) (args : List Arg) : GoString :=
  match sprintf env.isPrint format (args.map (Arg.shown env.isPrint h)) with
  | some s => s
  | none => env.fmtOther h format args

end Gopoet
