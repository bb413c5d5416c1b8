import Verif.Spec.Types
import Verif.Spec.GoTypeSyntax
/-!
# The syntax a type stands for

`TypeName.syntax t` is the Go type (abstract syntax) that `t` represents. `TypeName.wellNamed`
says that all names in `t` are identifiers, so that there is a Go type at all.
-/

namespace Gopoet

/-- The predeclared type names of the basic kinds; `byte` and `rune` are the other names of `uint8`
and `int32`. -/
def predeclared : ReflectKind → GoString
  | .bool => b! "bool" | .int => b! "int" | .int8 => b! "int8" | .int16 => b! "int16"
  | .int32 => b! "rune" | .int64 => b! "int64" | .uint => b! "uint" | .uint8 => b! "byte"
  | .uint16 => b! "uint16" | .uint32 => b! "uint32" | .uint64 => b! "uint64"
  | .uintptr => b! "uintptr" | .float32 => b! "float32" | .float64 => b! "float64"
  | .complex64 => b! "complex64" | .complex128 => b! "complex128" | .string => b! "string"
  | _ => []

/-- A symbol as written: qualified by its package name unless that is empty. -/
def Symbol.syntaxName (s : Symbol) : SynName :=
  (if s.package.name = [] then none else some s.package.name, s.name)

/-- Channel directions. -/
def synDir (d : ChanDir) : SynDir :=
  if d = recvDir then .recv else if d = sendDir then .send else .both

/-- A field name; the empty name stands for an embedded field. -/
def optName (n : GoString) : Option GoString := if n = [] then none else some n

/-- The name of a parameter: if some parameter of the list has a name, all have, `_` if need be. -/
def paramNameOf (named : Bool) (n : GoString) : Option GoString :=
  if named then some (if n = [] then b! "_" else n) else none

/-- Whether some parameter has a name. -/
def hasNames (args : List ArgType) : Bool := args.any (fun a => decide (a.name ≠ []))

mutual
/-- The Go type that a type name stands for. -/
def TypeName.syntax : TypeName → SynType
  | .nil => .name (none, [])
  | .basic k => .name (none, predeclared k)
  | .named s => .name s.syntaxName
  | .ptr e => .ptr e.syntax
  | .slice e => .slice e.syntax
  | .array e n => .array n.toNat e.syntax
  | .map e k => .map k.syntax e.syntax
  | .chan e d => .chan (synDir d) e.syntax
  | .func s => .func s.syntax
  | .struct fs => .struct (syntaxFields fs)
  | .interface ms es => .iface (es.map (fun s => .embed s.syntaxName) ++ syntaxMethods ms)
/-- The signature that a signature stands for. -/
def Signature.syntax : Signature → SynSig
  | ⟨args, results, v⟩ =>
    .mk (syntaxArgs v (hasNames args) args) v (syntaxArgs false (hasNames results) results)
/-- Parameters; the last one of a variadic signature is written with its element type. -/
def syntaxArgs (v named : Bool) : List ArgType → List (GoParam SynName)
  | [] => []
  | ⟨n, t⟩ :: l =>
    .mk (paramNameOf named n)
      (if v && l.isEmpty then syntaxElem t else t.syntax)
      :: syntaxArgs v named l
/-- The element type of a slice type. -/
def syntaxElem : TypeName → SynType
  | .slice e => e.syntax
  | _ => .name (none, [])
/-- Fields; no tag is the same as an empty tag. -/
def syntaxFields : List FieldType → List (GoField SynName)
  | [] => []
  | ⟨n, t, tag⟩ :: l => .mk (optName n) t.syntax (optName tag) :: syntaxFields l
/-- Methods. -/
def syntaxMethods : List MethodType → List (GoElem SynName)
  | [] => []
  | ⟨n, s⟩ :: l => .method n s.syntax :: syntaxMethods l
end

/-- The names of a symbol are identifiers; the package name may be absent. -/
def Symbol.wellNamed (s : Symbol) : Bool :=
  (s.package.name == [] || isIdent s.package.name) && isIdent s.name

/-- Types that can be embedded in a struct: type names and pointers to them. -/
def TypeName.embeddable : TypeName → Bool
  | .basic _ | .named _ | .ptr (.basic _) | .ptr (.named _) => true
  | _ => false

mutual
/-- All names are identifiers (parameters may be unnamed), fields without name are embeddable. -/
def TypeName.wellNamed : TypeName → Bool
  | .nil | .basic _ => true
  | .named s => s.wellNamed
  | .ptr e => e.wellNamed
  | .slice e => e.wellNamed
  | .array e _ => e.wellNamed
  | .map e k => e.wellNamed && k.wellNamed
  | .chan e _ => e.wellNamed
  | .func s => s.wellNamed
  | .struct fs => wellNamedFields fs
  | .interface ms es => wellNamedMethods ms && es.all Symbol.wellNamed
/-- see `TypeName.wellNamed` -/
def Signature.wellNamed : Signature → Bool
  | ⟨args, results, _⟩ => wellNamedArgs args && wellNamedArgs results
/-- see `TypeName.wellNamed` -/
def wellNamedArgs : List ArgType → Bool
  | [] => true
  | ⟨n, t⟩ :: l => (n == [] || isIdent n) && t.wellNamed && wellNamedArgs l
/-- see `TypeName.wellNamed` -/
def wellNamedFields : List FieldType → Bool
  | [] => true
  | ⟨n, t, _⟩ :: l =>
    ((n == [] && t.embeddable) || isIdent n) && t.wellNamed && wellNamedFields l
/-- see `TypeName.wellNamed` -/
def wellNamedMethods : List MethodType → Bool
  | [] => true
  | ⟨n, s⟩ :: l => isIdent n && s.wellNamed && wellNamedMethods l
end

/-- A channel type that can only be received from. -/
def TypeName.isRecvChan : TypeName → Bool
  | .chan _ d => d == recvDir
  | _ => false

mutual
/-- The type contains no bidirectional channel of receive-only channels and no interface with both
embedded interfaces and methods. (These are the two forms that rendering gets wrong.) -/
def TypeName.unproblematic : TypeName → Bool
  | .nil | .basic _ | .named _ => true
  | .ptr e => e.unproblematic
  | .slice e => e.unproblematic
  | .array e _ => e.unproblematic
  | .map e k => e.unproblematic && k.unproblematic
  | .chan e d => e.unproblematic && !(d == bothDir && e.isRecvChan)
  | .func s => s.unproblematic
  | .struct fs => unproblematicFields fs
  | .interface ms es => unproblematicMethods ms && (ms.isEmpty || es.isEmpty)
/-- see `TypeName.unproblematic` -/
def Signature.unproblematic : Signature → Bool
  | ⟨args, results, _⟩ => unproblematicArgs args && unproblematicArgs results
/-- see `TypeName.unproblematic` -/
def unproblematicArgs : List ArgType → Bool
  | [] => true
  | ⟨_, t⟩ :: l => t.unproblematic && unproblematicArgs l
/-- see `TypeName.unproblematic` -/
def unproblematicFields : List FieldType → Bool
  | [] => true
  | ⟨_, t, _⟩ :: l => t.unproblematic && unproblematicFields l
/-- see `TypeName.unproblematic` -/
def unproblematicMethods : List MethodType → Bool
  | [] => true
  | ⟨_, s⟩ :: l => s.unproblematic && unproblematicMethods l
end

end Gopoet
