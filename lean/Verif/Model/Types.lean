import Verif.Model.GoPath
/-!
# Model of types.go (values, constructors, accessors) and of Package / Symbol of model.go

`TypeName` values are modelled as immutable trees; pointer identity and slice aliasing are the
subject of `Verif.Model.Heap`.
-/

namespace Gopoet

/-- `Package` — model.go:25-27. -/
structure Package where
  importPath : GoString
  name : GoString
  deriving DecidableEq, Repr

/-- `Symbol` — model.go:77-80. -/
structure Symbol where
  package : Package
  name : GoString
  deriving DecidableEq, Repr

/-- The zero `Symbol{}`. -/
def Symbol.zero : Symbol := ⟨⟨[], []⟩, []⟩

/-- `NewPackage` — model.go:42-47. -/
def newPackage (importPath : GoString) : Package := { name := pathBase importPath, importPath }

/-- `Package.Symbol` — model.go:50-52. -/
def Package.symbol (p : Package) (name : GoString) : Symbol := { name, package := p }

/-- `NewSymbol` — model.go:94-96. -/
def newSymbol (importPath symName : GoString) : Symbol := (newPackage importPath).symbol symName

/-- `Package.String` — model.go:62-64. -/
def Package.string (p : Package) : GoString := p.name

/-- `Symbol.String` — model.go:122-127. -/
def Symbol.string (s : Symbol) : GoString :=
  if s.package.name ≠ [] then s.package.name ++ b! "." ++ s.name else s.name

/-- `reflect.Kind` (an unsigned integer type in the standard library); `other n` stands for
values outside the declared constants. -/
inductive ReflectKind where
  | invalid | bool | int | int8 | int16 | int32 | int64
  | uint | uint8 | uint16 | uint32 | uint64 | uintptr
  | float32 | float64 | complex64 | complex128
  | array | chan | func | interface | map | ptr | slice | string | struct | unsafePointer
  | other (n : Nat)
  deriving DecidableEq, Repr

/-- `reflect.Kind.String` for basic kinds (used by types.go:809,828). Kinds that `basicTypes`
does not contain never get here; their value is not modelled (empty string). -/
def ReflectKind.kindString : ReflectKind → GoString
  | .bool => b! "bool" | .int => b! "int" | .int8 => b! "int8" | .int16 => b! "int16"
  | .int32 => b! "int32" | .int64 => b! "int64" | .uint => b! "uint" | .uint8 => b! "uint8"
  | .uint16 => b! "uint16" | .uint32 => b! "uint32" | .uint64 => b! "uint64"
  | .uintptr => b! "uintptr" | .float32 => b! "float32" | .float64 => b! "float64"
  | .complex64 => b! "complex64" | .complex128 => b! "complex128" | .string => b! "string"
  | _ => []

/-- membership in the table `basicTypes` — types.go:376-394. -/
def ReflectKind.isBasic : ReflectKind → Bool
  | .bool | .string | .int | .int8 | .int16 | .int32 | .int64
  | .uint | .uint8 | .uint16 | .uint32 | .uint64 | .uintptr
  | .float32 | .float64 | .complex64 | .complex128 => true
  | _ => false

/-- `reflect.ChanDir`: a (64 bit) integer; `RecvDir = 1`, `SendDir = 2`, `BothDir = 3`. -/
abbrev ChanDir := BitVec 64
/-- `reflect.RecvDir` -/
def recvDir : ChanDir := 1
/-- `reflect.SendDir` -/
def sendDir : ChanDir := 2
/-- `reflect.BothDir` -/
def bothDir : ChanDir := 3

mutual
/-- `TypeName` — types.go:64-113 with its implementations basicTypeName (178), namedTypeName
(196), ptrTypeName (214), sliceTypeName (234), arrayTypeName (254), mapTypeName (275),
chanTypeName (295), funcTypeName (316), structTypeName (334), interfaceTypeName (354). The
constructor `nil` is the nil interface value. The lengths of arrays are `int64` in Go, here any
integer. -/
inductive TypeName where
  | nil
  | basic (k : ReflectKind)
  | named (sym : Symbol)
  | ptr (elem : TypeName)
  | slice (elem : TypeName)
  | array (elem : TypeName) (length : Int)
  | map (elem key : TypeName)
  | chan (elem : TypeName) (dir : ChanDir)
  | func (sig : Signature)
  | struct (fields : List FieldType)
  | interface (methods : List MethodType) (embeds : List Symbol)
/-- `Signature` — types.go:123-127. -/
structure Signature where
  args : List ArgType
  results : List ArgType
  isVariadic : Bool
/-- `ArgType` — types.go:158-161. -/
structure ArgType where
  name : GoString
  type : TypeName
/-- `FieldType` — types.go:165-169. -/
structure FieldType where
  name : GoString
  type : TypeName
  tag : GoString
/-- `MethodType` — types.go:173-176. -/
structure MethodType where
  name : GoString
  signature : Signature
end

/-- `TypeKind` — types.go:13-58. -/
inductive TypeKind where
  | invalid | named | basic | ptr | slice | array | map | chan | func | struct | interface
  deriving DecidableEq, Repr

namespace TypeName

/-- `Kind()` — types.go:182,200,220,240,261,281,302,320,340,361. On a nil interface value Go
panics. -/
def kind : TypeName → Outcome TypeKind
  | .nil => .panic
  | .basic _ => .ok .basic
  | .named _ => .ok .named
  | .ptr _ => .ok .ptr
  | .slice _ => .ok .slice
  | .array _ _ => .ok .array
  | .map _ _ => .ok .map
  | .chan _ _ => .ok .chan
  | .func _ => .ok .func
  | .struct _ => .ok .struct
  | .interface _ _ => .ok .interface

/-- `Symbol()` — types.go:183,201,221,241,262,282,303,321,341,362. -/
def symbol : TypeName → Outcome Symbol
  | .nil => .panic
  | .named s => .ok s
  | _ => .ok Symbol.zero

/-- `Elem()` — types.go:184,202,222,242,263,283,304,322,342,363. -/
def elem : TypeName → Outcome TypeName
  | .nil => .panic
  | .ptr e => .ok e
  | .slice e => .ok e
  | .array e _ => .ok e
  | .map e _ => .ok e
  | .chan e _ => .ok e
  | _ => .ok .nil

/-- `Key()` — types.go:185,203,223,243,264,284,305,323,343,364. -/
def key : TypeName → Outcome TypeName
  | .nil => .panic
  | .map _ k => .ok k
  | _ => .ok .nil

/-- `Len()` — types.go:186,204,224,244,265,285,306,324,344,365. -/
def len : TypeName → Outcome Int
  | .nil => .panic
  | .array _ n => .ok n
  | _ => .ok (-1)

/-- `Dir()` — types.go:187,205,225,245,266,286,307,325,345,366. -/
def dir : TypeName → Outcome ChanDir
  | .nil => .panic
  | .chan _ d => .ok d
  | _ => .ok 0

/-- `BasicKind()` — types.go:188,206,226,246,267,287,308,326,346,367. -/
def basicKind : TypeName → Outcome ReflectKind
  | .nil => .panic
  | .basic k => .ok k
  | _ => .ok .invalid

/-- `Signature()` — types.go:189,207,227,247,268,288,309,327,347,368; `none` is a nil pointer. -/
def signature : TypeName → Outcome (Option Signature)
  | .nil => .panic
  | .func s => .ok (some s)
  | _ => .ok none

/-- `Fields()` — types.go:190,208,228,248,269,289,310,328,348,369; `none` is a nil slice (for a
struct the result is never nil). -/
def fields : TypeName → Outcome (Option (List FieldType))
  | .nil => .panic
  | .struct fs => .ok (some fs)
  | _ => .ok none

/-- `Methods()` — types.go:191,209,229,249,270,290,311,329,349,370. -/
def methods : TypeName → Outcome (Option (List MethodType))
  | .nil => .panic
  | .interface ms _ => .ok (some ms)
  | _ => .ok none

/-- `Embeds()` — types.go:192,210,230,250,271,291,312,330,350,371. -/
def embeds : TypeName → Outcome (Option (List Symbol))
  | .nil => .panic
  | .interface _ es => .ok (some es)
  | _ => .ok none

/-- Comparison with nil, as in `t == nil`. -/
def isNil : TypeName → Bool
  | .nil => true
  | _ => false

end TypeName

/-- `NamedType` — types.go:685-687. -/
def namedType (sym : Symbol) : TypeName := .named sym

/-- `UnsafePointerType` — types.go:798. -/
def unsafePointerType : TypeName := namedType (newSymbol (b! "unsafe") (b! "Pointer"))

/-- `ErrorType` — types.go:796. -/
def errorType : TypeName := namedType { package := ⟨[], []⟩, name := b! "error" }

/-- `BasicType` — types.go:638-646. -/
def basicType (k : ReflectKind) : Outcome TypeName :=
  if k = .unsafePointer then .ok unsafePointerType
  else if k.isBasic then .ok (.basic k)
  else .panic

/-- `PointerType` — types.go:649-654. -/
def pointerType (t : TypeName) : Outcome TypeName :=
  if t.isNil then .panic else .ok (.ptr t)

/-- `SliceType` — types.go:658-663. -/
def sliceType (t : TypeName) : Outcome TypeName :=
  if t.isNil then .panic else .ok (.slice t)

/-- `ArrayType` — types.go:667-672. -/
def arrayType (t : TypeName) (length : Int) : Outcome TypeName :=
  if t.isNil || length < 0 then .panic else .ok (.array t length)

/-- `MapType` — types.go:676-681. -/
def mapType (k v : TypeName) : Outcome TypeName :=
  if k.isNil || v.isNil then .panic else .ok (.map (key := k) (elem := v))

/-- `ChannelType` — types.go:692-700. -/
def channelType (t : TypeName) (d : ChanDir) : Outcome TypeName :=
  let d := if d = 0 then bothDir else d
  if t.isNil || d &&& ~~~bothDir ≠ 0 then .panic else .ok (.chan t d)

/-- `FuncTypeFromSig` — types.go:724-739. -/
def funcTypeFromSig (sig : Signature) : Outcome TypeName :=
  if sig.args.any (·.type.isNil) then .panic
  else if sig.results.any (·.type.isNil) then .panic
  else if sig.isVariadic then
    match sig.args.getLast? with
    | none => .panic
    | some a =>
      match a.type.kind with
      | .ok .slice => .ok (.func sig)
      | _ => .panic
  else .ok (.func sig)

/-- `FuncType` — types.go:704-709. -/
def funcType (args results : List ArgType) : Outcome TypeName :=
  funcTypeFromSig { args, results, isVariadic := false }

/-- `FuncTypeVariadic` — types.go:714-720. -/
def funcTypeVariadic (args results : List ArgType) : Outcome TypeName :=
  funcTypeFromSig { args, results, isVariadic := true }

/-- `StructType` — types.go:743-745. -/
def structType (fields : List FieldType) : TypeName := .struct fields

/-- `InterfaceType` — types.go:749-754. -/
def interfaceType (embeds : List Symbol) (methods : List MethodType) : TypeName :=
  .interface methods embeds

/-- `Signature.AddArg` — types.go:133-136 (returns the updated signature). -/
def Signature.addArg (s : Signature) (name : GoString) (t : TypeName) : Signature :=
  { s with args := s.args ++ [⟨name, t⟩] }

/-- `Signature.AddResult` — types.go:142-145. -/
def Signature.addResult (s : Signature) (name : GoString) (t : TypeName) : Signature :=
  { s with results := s.results ++ [⟨name, t⟩] }

/-- `Signature.SetVariadic` — types.go:151-154. -/
def Signature.setVariadic (s : Signature) (b : Bool) : Signature := { s with isVariadic := b }

end Gopoet
