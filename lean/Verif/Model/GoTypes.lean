import Verif.Model.Types
/-!
# Model of the conversion from go/types (types.go:397-554, model.go:66-120)

The values of package go/types are modelled as trees. Not descending into the declaration of a
named type makes them finite; the only other cycle is the receiver of a method of an interface
literal, which is the literal itself: see `GTRecv.iface`. Type parameters, unions, aliases and tuples
all end up in the `default` branch of the code and are one constructor here.
-/

namespace Gopoet

/-- `*types.Package`, as far as the code looks at it. -/
structure TypesPackage where
  path : GoString
  name : GoString
  deriving DecidableEq, Repr

/-- `types.BasicKind`; `other n` stands for values outside the declared constants. -/
inductive TypesKind where
  | invalid | bool | int | int8 | int16 | int32 | int64
  | uint | uint8 | uint16 | uint32 | uint64 | uintptr
  | float32 | float64 | complex64 | complex128 | string | unsafePointer
  | untypedBool | untypedInt | untypedRune | untypedFloat | untypedComplex | untypedString | untypedNil
  | other (n : Nat)
  deriving DecidableEq, Repr

/-- `types.ChanDir`. -/
inductive TypesDir where
  | sendRecv | sendOnly | recvOnly
  | other (n : Int)
  deriving DecidableEq, Repr

/-- The object of a `*types.Named`: its name and its package, which is nil for the types of the
universe block that are not basic types (`error`). -/
structure TypesName where
  pkg : Option TypesPackage
  name : GoString
  deriving DecidableEq, Repr

mutual
/-- `types.Type`. -/
inductive GT where
  | named (n : TypesName)
  | basic (k : TypesKind)
  | map (key elem : GT)
  | slice (elem : GT)
  | array (elem : GT) (len : Int)
  | pointer (elem : GT)
  | chan (dir : TypesDir) (elem : GT)
  | signature (s : GTSig)
  | struct (fields : List GTField)
  /-- `Embedded(i)` is nil for an embedded type that is no named type. -/
  | interface (embeds : List (Option TypesName)) (methods : List GTMethod)
  /-- `*types.Tuple` and whatever later versions of go/types add -/
  | other
/-- `*types.Signature`. -/
inductive GTSig where
  | mk (recv : GTRecv) (params results : List GTVar) (variadic : Bool)
/-- The receiver of a signature: none, a variable whose type is an interface (the code does not look
at it any further), or a variable of another type. -/
inductive GTRecv where
  | none
  | iface
  | concrete (name : GoString) (type : GT)
/-- `*types.Var` as parameter or result. -/
inductive GTVar where
  | mk (name : GoString) (type : GT)
/-- `*types.Var` as field, with `t.Tag(i)`. For an anonymous field the name is the one it gets from
its type. -/
inductive GTField where
  | mk (name : GoString) (anonymous : Bool) (type : GT) (tag : GoString)
/-- `*types.Func` as method of an interface. -/
inductive GTMethod where
  | mk (name : GoString) (sig : GTSig)
end

/-- `PackageForGoType` — model.go:68-73. `pkg.Name()` on a nil pointer panics. -/
def packageForGoType : Option TypesPackage → Outcome Package
  | none => .panic
  | some p => .ok { name := p.name, importPath := p.path }

/-- The symbol of a named type — types.go:401-405 and 508-511. -/
def symbolForTypesName (n : TypesName) : Outcome Symbol := do
  let p ← packageForGoType n.pkg
  pure { name := n.name, package := p }

/-- The inner switch of types.go:408-454, including the call of `BasicType`. -/
def basicForGoType : TypesKind → Outcome TypeName
  | .bool => basicType .bool
  | .int => basicType .int
  | .int8 => basicType .int8
  | .int16 => basicType .int16
  | .int32 => basicType .int32
  | .int64 => basicType .int64
  | .uint => basicType .uint
  | .uint8 => basicType .uint8
  | .uint16 => basicType .uint16
  | .uint32 => basicType .uint32
  | .uint64 => basicType .uint64
  | .uintptr => basicType .uintptr
  | .float32 => basicType .float32
  | .float64 => basicType .float64
  | .complex64 => basicType .complex64
  | .complex128 => basicType .complex128
  | .string => basicType .string
  | .unsafePointer => .ok unsafePointerType
  | _ => .panic

/-- The embedded interfaces — types.go:504-512. A nil `*types.Named` panics at `Obj()`. -/
def embedsForGoType : List (Option TypesName) → Outcome (List Symbol)
  | [] => .ok []
  | none :: _ => .panic
  | some n :: l => do
    let s ← symbolForTypesName n
    let r ← embedsForGoType l
    pure (s :: r)

mutual
/-- `TypeNameForGoType` — types.go:398-524. -/
def typeNameForGoType : GT → Outcome TypeName
  | .named n => do
    let s ← symbolForTypesName n
    pure (namedType s)
  | .basic k => basicForGoType k
  | .map k e => do
    let k ← typeNameForGoType k
    let e ← typeNameForGoType e
    mapType k e
  | .slice e => do sliceType (← typeNameForGoType e)
  | .array e n => do arrayType (← typeNameForGoType e) n
  | .pointer e => do pointerType (← typeNameForGoType e)
  | .chan d e =>
    match d with
    | .sendRecv => do channelType (← typeNameForGoType e) bothDir
    | .sendOnly => do channelType (← typeNameForGoType e) sendDir
    | .recvOnly => do channelType (← typeNameForGoType e) recvDir
    | .other _ => .panic
  | .signature s => do funcTypeFromSig (← signatureFromGoType s)
  | .struct fs => do
    let fs ← fieldsForGoType fs
    pure (structType fs)
  | .interface es ms => do
    let es ← embedsForGoType es
    let ms ← methodsForGoType ms
    pure (interfaceType es ms)
  | .other => .panic
/-- `signatureFromGoType` — types.go:526-543. -/
def signatureFromGoType : GTSig → Outcome Signature
  | .mk recv params results variadic => do
    let args ← argsTypesForGoType params
    let results ← argsTypesForGoType results
    let r ← recvArgForGoType recv
    pure ⟨r ++ args, results, variadic⟩
/-- The receiver as arguments to prepend — types.go:530-542. -/
def recvArgForGoType : GTRecv → Outcome (List ArgType)
  | .none => .ok []
  | .iface => .ok []
  | .concrete n t => do
    let t ← typeNameForGoType t
    pure [⟨n, t⟩]
/-- `argsTypesForGoType` — types.go:545-554. -/
def argsTypesForGoType : List GTVar → Outcome (List ArgType)
  | [] => .ok []
  | .mk n t :: l => do
    let t ← typeNameForGoType t
    let r ← argsTypesForGoType l
    pure (⟨n, t⟩ :: r)
/-- The fields of a struct — types.go:488-501. -/
def fieldsForGoType : List GTField → Outcome (List FieldType)
  | [] => .ok []
  | .mk n anonymous t tag :: l => do
    let t ← typeNameForGoType t
    let r ← fieldsForGoType l
    pure (⟨if !anonymous then n else [], t, tag⟩ :: r)
/-- The explicit methods of an interface — types.go:513-518. -/
def methodsForGoType : List GTMethod → Outcome (List MethodType)
  | [] => .ok []
  | .mk n s :: l => do
    let s ← signatureFromGoType s
    let r ← methodsForGoType l
    pure (⟨n, s⟩ :: r)
end

/-- `MethodReference` — model.go (Type, Method). -/
structure MethodReference where
  type : Symbol
  method : GoString
  deriving DecidableEq, Repr

/-- `SymbolOrMethodRef` — model.go:84-87. -/
inductive SymbolOrMethodRef where
  | symbol (s : Symbol)
  | method (m : MethodReference)
  deriving DecidableEq, Repr

/-- `types.Object`: a `*types.Func` with the type of the receiver of its signature, or another
object. -/
inductive TypesObject where
  | func (pkg : Option TypesPackage) (name : GoString) (recv : Option GT)
  | other (pkg : Option TypesPackage) (name : GoString)

/-- `obj.Name()` -/
def TypesObject.name : TypesObject → GoString
  | .func _ n _ => n
  | .other _ n => n

/-- `obj.Pkg()` -/
def TypesObject.pkg : TypesObject → Option TypesPackage
  | .func p _ _ => p
  | .other p _ => p

/-- `if recvType.Kind() == KindPtr { recvType = recvType.Elem() }` — model.go:108-110. -/
def throughPointer (t : TypeName) : Outcome TypeName := do
  let k ← t.kind
  if k = .ptr then t.elem else .ok t

/-- The statements of model.go:107-114 once the receiver is known. -/
def methodRefForGoObject (recv : GT) (name : GoString) : Outcome SymbolOrMethodRef := do
  let recvType ← typeNameForGoType recv
  let recvType ← throughPointer recvType
  let s ← recvType.symbol
  pure (.method { type := s, method := name })

/-- `SymbolForGoObject` — model.go:102-118. -/
def symbolForGoObject (obj : TypesObject) : Outcome SymbolOrMethodRef :=
  match obj with
  | .func _ name (some recv) => methodRefForGoObject recv name
  | _ => do
    let p ← packageForGoType obj.pkg
    pure (.symbol (p.symbol obj.name))

end Gopoet
