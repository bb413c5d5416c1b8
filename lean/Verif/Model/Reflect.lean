import Verif.Model.Types
/-!
# Model of the conversion from reflect.Type (types.go:556-631)

A `reflect.Type` is modelled as a tree: a type with a name (predeclared or declared) is not looked
into by the code and is a leaf. Names of instantiated generic types are not considered.
-/

namespace Gopoet

mutual
/-- `reflect.Type`. -/
inductive RT where
  /-- a type with a name: its kind, `PkgPath()` (empty for predeclared types) and `Name()` -/
  | defined (kind : ReflectKind) (pkgPath name : GoString)
  | ptr (elem : RT)
  | slice (elem : RT)
  | array (elem : RT) (len : Nat)
  | chan (dir : ChanDir) (elem : RT)
  | map (key elem : RT)
  | func (sig : RTSig)
  | struct (fields : List RTField)
  | interface (methods : List RTMethod)
/-- Parameters, results and `IsVariadic()` of a function type. -/
inductive RTSig where
  | mk (ins outs : List RT) (variadic : Bool)
/-- `reflect.StructField`; an anonymous field has the name of its type. -/
inductive RTField where
  | mk (name : GoString) (anonymous : Bool) (type : RT) (tag : GoString)
/-- `reflect.Method` of an interface type. -/
inductive RTMethod where
  | mk (name : GoString) (sig : RTSig)
end

/-- `t.Kind()` -/
def RT.kind : RT → ReflectKind
  | .defined k _ _ => k
  | .ptr _ => .ptr
  | .slice _ => .slice
  | .array _ _ => .array
  | .chan _ _ => .chan
  | .map _ _ => .map
  | .func _ => .func
  | .struct _ => .struct
  | .interface _ => .interface

/-- `t.Name()` -/
def RT.name : RT → GoString
  | .defined _ _ n => n
  | _ => []

/-- `t.PkgPath()` -/
def RT.pkgPath : RT → GoString
  | .defined _ p _ => p
  | _ => []

/-- `sig.Args[i] = a` panics outside of the slice. -/
def setArg (args : List ArgType) (i : Nat) (a : ArgType) : Outcome (List ArgType) :=
  if i < args.length then .ok (args.set i a) else .panic

mutual
/-- `TypeNameForReflectType` — types.go:561-615. The first two cases test `t.Kind()`, `t.PkgPath()`
and `t.Name()`, which is not empty exactly for the types of the first constructor (`RT.wf`). There is
no case for maps. -/
def typeNameForReflectType : RT → Outcome TypeName
  | .defined kind pkgPath name =>
    if kind.isBasic && pkgPath == [] then basicType kind
    else if name ≠ [] then .ok (namedType { name, package := { importPath := pkgPath, name := [] } })
    else .panic
  | .ptr e => do pointerType (← typeNameForReflectType e)
  | .slice e => do sliceType (← typeNameForReflectType e)
  | .array e n => do arrayType (← typeNameForReflectType e) n
  | .chan d e => do channelType (← typeNameForReflectType e) d
  | .map _ _ => .panic
  | .func s => do funcTypeFromSig (← signatureFromReflectType s)
  | .struct fs => do
    let fs ← fieldsForReflectType fs
    pure (structType fs)
  | .interface ms => do
    let ms ← methodsForReflectType ms
    pure (interfaceType [] ms)
/-- `signatureFromReflectType` — types.go:617-631. The results are stored into `sig.Args`. -/
def signatureFromReflectType : RTSig → Outcome Signature
  | .mk ins outs variadic => do
    let args ← argsForReflectType ins
    let args ← storeResults args 0 outs
    pure ⟨args, List.replicate outs.length ⟨[], .nil⟩, variadic⟩
/-- types.go:619-624 -/
def argsForReflectType : List RT → Outcome (List ArgType)
  | [] => .ok []
  | t :: l => do
    let t ← typeNameForReflectType t
    let r ← argsForReflectType l
    pure (⟨[], t⟩ :: r)
/-- types.go:626-630 -/
def storeResults (args : List ArgType) (i : Nat) : List RT → Outcome (List ArgType)
  | [] => .ok args
  | t :: l => do
    let t ← typeNameForReflectType t
    let args ← setArg args i ⟨[], t⟩
    storeResults args (i + 1) l
/-- types.go:591-599 -/
def fieldsForReflectType : List RTField → Outcome (List FieldType)
  | [] => .ok []
  | .mk n _ t tag :: l => do
    let t ← typeNameForReflectType t
    let r ← fieldsForReflectType l
    pure (⟨n, t, tag⟩ :: r)
/-- types.go:603-608 -/
def methodsForReflectType : List RTMethod → Outcome (List MethodType)
  | [] => .ok []
  | .mk n s :: l => do
    let s ← signatureFromReflectType s
    let r ← methodsForReflectType l
    pure (⟨n, s⟩ :: r)
end

end Gopoet
