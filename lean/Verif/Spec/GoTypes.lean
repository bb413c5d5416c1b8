import Verif.Model.GoTypes
import Verif.Spec.TypeMeaning
/-!
# The Go type that a go/types value denotes

Written from the documentation of go/types, in the vocabulary of `Verif.Spec.GoTypeSyntax`: the same
vocabulary in which `TypeName.meaning` says what a type name stands for.
-/

namespace Gopoet

/-- What a named type refers to: an object without package is in the universe block. -/
def TypesName.ident (n : TypesName) : TypeIdent :=
  match n.pkg with
  | none => .builtin n.name
  | some p => .declared p.path n.name

/-- What a symbol refers to: without a package, something in the universe block. -/
def Symbol.ident (s : Symbol) : TypeIdent :=
  if s.package.importPath = [] then .builtin s.name else .declared s.package.importPath s.name

/-- What a basic kind refers to; untyped and invalid kinds are no type one can write. -/
def TypesKind.ident : TypesKind → Option TypeIdent
  | .bool => some (.builtin (b! "bool")) | .int => some (.builtin (b! "int"))
  | .int8 => some (.builtin (b! "int8")) | .int16 => some (.builtin (b! "int16"))
  | .int32 => some (.builtin (b! "int32")) | .int64 => some (.builtin (b! "int64"))
  | .uint => some (.builtin (b! "uint")) | .uint8 => some (.builtin (b! "uint8"))
  | .uint16 => some (.builtin (b! "uint16")) | .uint32 => some (.builtin (b! "uint32"))
  | .uint64 => some (.builtin (b! "uint64")) | .uintptr => some (.builtin (b! "uintptr"))
  | .float32 => some (.builtin (b! "float32")) | .float64 => some (.builtin (b! "float64"))
  | .complex64 => some (.builtin (b! "complex64")) | .complex128 => some (.builtin (b! "complex128"))
  | .string => some (.builtin (b! "string"))
  | .unsafePointer => some (.declared (b! "unsafe") (b! "Pointer"))
  | _ => none

/-- Channel directions. -/
def TypesDir.dir : TypesDir → Option SynDir
  | .sendRecv => some .both
  | .sendOnly => some .send
  | .recvOnly => some .recv
  | .other _ => none

/-- Whether some parameter has a name. -/
def varsNamed : List GTVar → Bool
  | [] => false
  | .mk n _ :: l => decide (n ≠ []) || varsNamed l

/-- Whether the receiver has a name and counts as a parameter. -/
def GTRecv.isNamed : GTRecv → Bool
  | .concrete n _ => decide (n ≠ [])
  | _ => false

/-- Embedded interfaces; only names can be embedded. -/
def denoteEmbeds : List (Option TypesName) → Option (List (GoElem TypeIdent))
  | [] => some []
  | none :: _ => none
  | some n :: l => (denoteEmbeds l).map (.embed n.ident :: ·)

mutual
/-- The Go type a go/types value denotes; `none` if no type can be written for it. -/
def GT.denotes : GT → Option (GoType TypeIdent)
  | .named n => some (.name n.ident)
  | .basic k => k.ident.map .name
  | .map k e => k.denotes.bind fun k => e.denotes.map (.map k)
  | .slice e => e.denotes.map .slice
  | .array e n => if n < 0 then none else e.denotes.map (.array n.toNat)
  | .pointer e => e.denotes.map .ptr
  | .chan d e => d.dir.bind fun d => e.denotes.map (.chan d)
  | .signature s => s.denotes.map .func
  | .struct fs => (denoteFields fs).map .struct
  | .interface es ms =>
    (denoteEmbeds es).bind fun es => (denoteMethods ms).map (fun ms => .iface (es ++ ms))
  | .other => none
/-- A signature; a method (other than of an interface) is taken as the function that its method
expression is: the receiver comes first. -/
def GTSig.denotes : GTSig → Option (GoSig TypeIdent)
  | .mk recv ps rs v =>
    (denoteRecv (recv.isNamed || varsNamed ps) recv).bind fun r =>
    (denoteVars v (recv.isNamed || varsNamed ps) ps).bind fun ps =>
    (denoteVars false (varsNamed rs) rs).map fun rs => .mk (r ++ ps) v rs
/-- see `GTSig.denotes` -/
def denoteRecv (named : Bool) : GTRecv → Option (List (GoParam TypeIdent))
  | .none => some []
  | .iface => some []
  | .concrete n t => t.denotes.map fun t => [.mk (paramNameOf named n) t]
/-- Parameters; of the last parameter of a variadic signature the element type. -/
def denoteVars (v named : Bool) : List GTVar → Option (List (GoParam TypeIdent))
  | [] => some []
  | .mk n t :: l =>
    (if v && l.isEmpty then denoteElem t else t.denotes).bind fun t =>
    (denoteVars v named l).map (.mk (paramNameOf named n) t :: ·)
/-- The element type of a slice type. -/
def denoteElem : GT → Option (GoType TypeIdent)
  | .slice e => e.denotes
  | _ => none
/-- Fields; anonymous ones are embedded; an empty tag is no tag. -/
def denoteFields : List GTField → Option (List (GoField TypeIdent))
  | [] => some []
  | .mk n anonymous t tag :: l =>
    t.denotes.bind fun t => (denoteFields l).map fun l =>
      .mk (if anonymous then none else some n) t (optName tag) :: l
/-- Methods. -/
def denoteMethods : List GTMethod → Option (List (GoElem TypeIdent))
  | [] => some []
  | .mk n s :: l => s.denotes.bind fun s => (denoteMethods l).map (.method n s :: ·)
end

/-- Embedded names. -/
def embedNames : List (Option TypesName) → List TypesName
  | [] => []
  | none :: l => embedNames l
  | some n :: l => n :: embedNames l

mutual
/-- All names a go/types value mentions, in the order of `TypeName.symbols`. -/
def GT.names : GT → List TypesName
  | .named n => [n]
  | .basic .unsafePointer => [⟨some ⟨b! "unsafe", b! "unsafe"⟩, b! "Pointer"⟩]
  | .basic _ => []
  | .map k e => k.names ++ e.names
  | .slice e => e.names
  | .array e _ => e.names
  | .pointer e => e.names
  | .chan _ e => e.names
  | .signature s => s.names
  | .struct fs => namesFields fs
  | .interface es ms => embedNames es ++ namesMethods ms
  | .other => []
/-- see `GT.names` -/
def GTSig.names : GTSig → List TypesName
  | .mk recv ps rs _ => namesRecv recv ++ namesVars ps ++ namesVars rs
/-- see `GT.names` -/
def namesRecv : GTRecv → List TypesName
  | .none => []
  | .iface => []
  | .concrete _ t => t.names
/-- see `GT.names` -/
def namesVars : List GTVar → List TypesName
  | [] => []
  | .mk _ t :: l => t.names ++ namesVars l
/-- see `GT.names` -/
def namesFields : List GTField → List TypesName
  | [] => []
  | .mk _ _ t _ :: l => t.names ++ namesFields l
/-- see `GT.names` -/
def namesMethods : List GTMethod → List TypesName
  | [] => []
  | .mk _ s :: l => s.names ++ namesMethods l
end

/-- The last parameter has a slice type. -/
def lastVarIsSlice : List GTVar → Bool
  | [] => false
  | [.mk _ (.slice _)] => true
  | [_] => false
  | _ :: l => lastVarIsSlice l

mutual
/-- What go/types guarantees of its values: a variadic signature ends in a slice
(`types.NewSignature` panics otherwise; the special signature of `append([]byte, string...)` is
not considered), and a field that is not anonymous has a name. -/
def GT.wf : GT → Bool
  | .named _ | .basic _ | .other => true
  | .map k e => k.wf && e.wf
  | .slice e => e.wf
  | .array e _ => e.wf
  | .pointer e => e.wf
  | .chan _ e => e.wf
  | .signature s => s.wf
  | .struct fs => wfFields fs
  | .interface _ ms => wfMethods ms
/-- see `GT.wf` -/
def GTSig.wf : GTSig → Bool
  | .mk recv ps rs v => wfRecv recv && wfVars ps && wfVars rs && (!v || lastVarIsSlice ps)
/-- see `GT.wf` -/
def wfRecv : GTRecv → Bool
  | .none => true
  | .iface => true
  | .concrete _ t => t.wf
/-- see `GT.wf` -/
def wfVars : List GTVar → Bool
  | [] => true
  | .mk _ t :: l => t.wf && wfVars l
/-- see `GT.wf` -/
def wfFields : List GTField → Bool
  | [] => true
  | .mk n anonymous t _ :: l => (anonymous || n != []) && t.wf && wfFields l
/-- see `GT.wf` -/
def wfMethods : List GTMethod → Bool
  | [] => true
  | .mk _ s :: l => s.wf && wfMethods l
end

end Gopoet
