import Verif.Spec.Imports
import Verif.Spec.TypeSyntax
/-!
# What a type written in a Go file means

Names are resolved by Go's scoping rules: a qualifier through the import declarations of the file,
an unqualified name through the file block (imports), the package block (the declarations of the own
package) and the universe block (predeclared types).
-/

namespace Gopoet

/-- What a type name can refer to: a predeclared type, or a declaration of a package. -/
inductive TypeIdent where
  | builtin (name : GoString)
  | declared (path name : GoString)
  deriving DecidableEq, Repr

/-- The predeclared types; `byte` and `rune` are aliases. -/
def universeBlock : List (GoString × TypeIdent) :=
  [(b! "bool", .builtin (b! "bool")), (b! "byte", .builtin (b! "uint8")),
   (b! "complex64", .builtin (b! "complex64")), (b! "complex128", .builtin (b! "complex128")),
   (b! "error", .builtin (b! "error")), (b! "float32", .builtin (b! "float32")),
   (b! "float64", .builtin (b! "float64")), (b! "int", .builtin (b! "int")),
   (b! "int8", .builtin (b! "int8")), (b! "int16", .builtin (b! "int16")),
   (b! "int32", .builtin (b! "int32")), (b! "int64", .builtin (b! "int64")),
   (b! "rune", .builtin (b! "int32")), (b! "string", .builtin (b! "string")),
   (b! "uint", .builtin (b! "uint")), (b! "uint8", .builtin (b! "uint8")),
   (b! "uint16", .builtin (b! "uint16")), (b! "uint32", .builtin (b! "uint32")),
   (b! "uint64", .builtin (b! "uint64")), (b! "uintptr", .builtin (b! "uintptr"))]

/-- What is in scope in a file of package `own`. -/
structure FileScope where
  /-- import path of the package the file belongs to -/
  own : GoString
  /-- names declared in that package -/
  decls : List GoString
  /-- import declarations of the file -/
  imports : List ImportSpec
  /-- the name in the package clause of each package -/
  realName : GoString → GoString

/-- What an unqualified name refers to in the package and universe blocks. -/
def FileScope.lookup (sc : FileScope) (n : GoString) : Option TypeIdent :=
  if n ∈ sc.decls then some (.declared sc.own n) else GoMap.get universeBlock n

/-- What a type name refers to. A name that an import declaration binds is no type. -/
def FileScope.resolve (sc : FileScope) : SynName → Option TypeIdent
  | (some q, n) =>
    match resolveQualifier sc.realName sc.imports q with
    | [p] => some (.declared p n)
    | _ => none
  | (none, n) => if n ∈ sc.imports.map (·.binds sc.realName) then none else sc.lookup n

/-- What a symbol stands for in a file: its declaration, or, for a symbol without package, what the
bare name refers to in the own package and the universe block. -/
def FileScope.symbolMeaning (sc : FileScope) (s : Symbol) : TypeIdent :=
  if s.package = ⟨[], []⟩ then (sc.lookup s.name).getD (.builtin [])
  else .declared s.package.importPath s.name

mutual
/-- Resolve all names of a type. -/
def GoType.resolve {N M : Type} (f : N → Option M) : GoType N → Option (GoType M)
  | .name n => (f n).map .name
  | .ptr e => (e.resolve f).map .ptr
  | .slice e => (e.resolve f).map .slice
  | .array n e => (e.resolve f).map (.array n)
  | .map k e => (k.resolve f).bind fun k => (e.resolve f).map (.map k)
  | .chan d e => (e.resolve f).map (.chan d)
  | .func s => (s.resolve f).map .func
  | .struct fs => (resolveFields f fs).map .struct
  | .iface es => (resolveElems f es).map .iface
/-- see `GoType.resolve` -/
def GoSig.resolve {N M : Type} (f : N → Option M) : GoSig N → Option (GoSig M)
  | .mk ps v rs => (resolveParams f ps).bind fun ps => (resolveParams f rs).map (.mk ps v)
/-- see `GoType.resolve` -/
def resolveParams {N M : Type} (f : N → Option M) : List (GoParam N) → Option (List (GoParam M))
  | [] => some []
  | .mk n t :: l => (t.resolve f).bind fun t => (resolveParams f l).map (.mk n t :: ·)
/-- see `GoType.resolve` -/
def resolveFields {N M : Type} (f : N → Option M) : List (GoField N) → Option (List (GoField M))
  | [] => some []
  | .mk n t tag :: l => (t.resolve f).bind fun t => (resolveFields f l).map (.mk n t tag :: ·)
/-- see `GoType.resolve` -/
def resolveElems {N M : Type} (f : N → Option M) : List (GoElem N) → Option (List (GoElem M))
  | [] => some []
  | .embed n :: l => (f n).bind fun n => (resolveElems f l).map (.embed n :: ·)
  | .method n s :: l => (s.resolve f).bind fun s => (resolveElems f l).map (.method n s :: ·)
end

/-- The meaning of a text as a type in a file. -/
def FileScope.typeMeaning (sc : FileScope) (s : GoString) : Option (GoType TypeIdent) :=
  (parseGoType s).bind (GoType.resolve sc.resolve)

/-- The predeclared type of a basic kind. -/
def kindIdent : ReflectKind → TypeIdent
  | .bool => .builtin (b! "bool") | .int => .builtin (b! "int") | .int8 => .builtin (b! "int8")
  | .int16 => .builtin (b! "int16") | .int32 => .builtin (b! "int32")
  | .int64 => .builtin (b! "int64") | .uint => .builtin (b! "uint") | .uint8 => .builtin (b! "uint8")
  | .uint16 => .builtin (b! "uint16") | .uint32 => .builtin (b! "uint32")
  | .uint64 => .builtin (b! "uint64") | .uintptr => .builtin (b! "uintptr")
  | .float32 => .builtin (b! "float32") | .float64 => .builtin (b! "float64")
  | .complex64 => .builtin (b! "complex64") | .complex128 => .builtin (b! "complex128")
  | .string => .builtin (b! "string")
  | _ => .builtin []

mutual
/-- The Go type a type name stands for, with symbols and basic kinds standing for what `m` and
`kindIdent` say. -/
def TypeName.meaning (m : Symbol → TypeIdent) : TypeName → GoType TypeIdent
  | .nil => .name (.builtin [])
  | .basic k => .name (kindIdent k)
  | .named s => .name (m s)
  | .ptr e => .ptr (e.meaning m)
  | .slice e => .slice (e.meaning m)
  | .array e n => .array n.toNat (e.meaning m)
  | .map e k => .map (k.meaning m) (e.meaning m)
  | .chan e d => .chan (synDir d) (e.meaning m)
  | .func s => .func (s.meaning m)
  | .struct fs => .struct (meaningFields m fs)
  | .interface ms es => .iface (es.map (fun s => .embed (m s)) ++ meaningMethods m ms)
/-- see `TypeName.meaning` -/
def Signature.meaning (m : Symbol → TypeIdent) : Signature → GoSig TypeIdent
  | ⟨args, results, v⟩ =>
    .mk (meaningArgs m v (hasNames args) args) v (meaningArgs m false (hasNames results) results)
/-- see `TypeName.meaning` -/
def meaningArgs (m : Symbol → TypeIdent) (v named : Bool) : List ArgType → List (GoParam TypeIdent)
  | [] => []
  | ⟨n, t⟩ :: l =>
    .mk (paramNameOf named n) (if v && l.isEmpty then meaningElem m t else t.meaning m)
      :: meaningArgs m v named l
/-- see `TypeName.meaning` -/
def meaningElem (m : Symbol → TypeIdent) : TypeName → GoType TypeIdent
  | .slice e => e.meaning m
  | _ => .name (.builtin [])
/-- see `TypeName.meaning` -/
def meaningFields (m : Symbol → TypeIdent) : List FieldType → List (GoField TypeIdent)
  | [] => []
  | ⟨n, t, tag⟩ :: l => .mk (optName n) (t.meaning m) (optName tag) :: meaningFields m l
/-- see `TypeName.meaning` -/
def meaningMethods (m : Symbol → TypeIdent) : List MethodType → List (GoElem TypeIdent)
  | [] => []
  | ⟨n, s⟩ :: l => .method n (s.meaning m) :: meaningMethods m l
end

mutual
/-- The basic kinds a type mentions. -/
def TypeName.basics : TypeName → List ReflectKind
  | .nil | .named _ => []
  | .basic k => [k]
  | .ptr e => e.basics
  | .slice e => e.basics
  | .array e _ => e.basics
  | .map e k => e.basics ++ k.basics
  | .chan e _ => e.basics
  | .func s => s.basics
  | .struct fs => basicsFields fs
  | .interface ms _ => basicsMethods ms
/-- see `TypeName.basics` -/
def Signature.basics : Signature → List ReflectKind
  | ⟨args, results, _⟩ => basicsArgs args ++ basicsArgs results
/-- see `TypeName.basics` -/
def basicsArgs : List ArgType → List ReflectKind
  | [] => []
  | ⟨_, t⟩ :: l => t.basics ++ basicsArgs l
/-- see `TypeName.basics` -/
def basicsFields : List FieldType → List ReflectKind
  | [] => []
  | ⟨_, t, _⟩ :: l => t.basics ++ basicsFields l
/-- see `TypeName.basics` -/
def basicsMethods : List MethodType → List ReflectKind
  | [] => []
  | ⟨_, s⟩ :: l => s.basics ++ basicsMethods l
end

end Gopoet
