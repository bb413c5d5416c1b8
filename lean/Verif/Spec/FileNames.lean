import Verif.Spec.FileMeaning
/-!
# Go's rules for the names that are declared in a file

From the language specification ("Declarations and scope", "Import declarations", "Package
initialization", "Method declarations"): no identifier may be declared twice in the same block, and
none in both the file and the package block. Imports are declared in the file block, everything else
at the top level in the package block. The blank identifier declares nothing, nor do functions called
`init`, and `init` can be declared only as a function. The methods of a type have different names.
That methods and fields of a type have different names is not checked here.
-/

namespace Gopoet

/-- What is declared at the top level: a name of the package, or a method of one of its types. -/
inductive Declared where
  | name (n : GoString)
  | method (type n : GoString)
  deriving DecidableEq

/-- The blank identifier declares nothing. -/
def Declared.isBlank : Declared → Bool
  | .name n | .method _ n => n == b! "_"

/-- The type that the receiver of a method belongs to. -/
def GoParam.receiverType : GoParam SynName → GoString
  | .mk _ (.name (_, t)) | .mk _ (.ptr (.name (_, t))) => t
  | _ => []

/-- What a declaration declares, blank identifiers included. -/
def DeclSyn.declared : DeclSyn → List Declared
  | .type (.single d) => [.name d.name]
  | .type (.group ds) => ds.map (.name ·.name)
  | .value _ v => v.names.map .name
  | .values _ vs => vs.flatMap (·.names.map .name)
  | .func ⟨none, n, _⟩ _ => if n = b! "init" then [] else [.name n]
  | .func ⟨some r, n, _⟩ _ => [.method r.receiverType n]

/-- What a source file declares at the top level, besides its imports. -/
def SourceFile.declared (src : SourceFile) : List Declared :=
  (src.decls.flatMap DeclSyn.declared).filter (!·.isBlank)

/-- The rules, for a file of a package in whose other files `others` is declared. -/
structure SourceFile.LegalNames (src : SourceFile) (others : List Declared) (realName : GoString → GoString) : Prop where
  /-- Nothing is declared twice in the package. -/
  once : (others ++ src.declared).Nodup
  /-- Only functions are called `init`. -/
  init : .name (b! "init") ∉ src.declared
  /-- Imports have different names. -/
  imports : (src.imports.map (·.spec.binds realName)).Nodup
  /-- No import has the name of a declaration of the package, or is called `init`. -/
  apart : ∀ s ∈ src.imports, .name (s.spec.binds realName) ∉ others ++ src.declared ∧ s.spec.binds realName ≠ b! "init"

/-! ### What the elements of a file in the heap are called -/

/-- What a spec in a declaration of types declares. -/
def typeDeclared (h : Heap) (p : Ptr) : List Declared := ((h.types p).map (.name ·.name)).toList

/-- What constants or variables declare. -/
def valueDeclared (h : Heap) (p : Ptr) : List Declared :=
  match h.values p with
  | some c => c.names.map .name
  | none => []

/-- What an element of a file declares, going by the names that its specs have. -/
def FileElem.declared (h : Heap) : FileElem → List Declared
  | .types p => match h.typeDecls p with
    | some d => d.types.flatMap (typeDeclared h)
    | none => []
  | .values p => match h.valueDecls p with
    | some d => d.specs.flatMap (valueDeclared h)
    | none => []
  | .func p => match h.funcs p with
    | some f => match f.receiver with
      | none => if f.name = b! "init" then [] else [.name f.name]
      | some r => [.method r.type f.name]
    | none => []

/-- What the elements of a file declare. -/
def GoFile.declared (h : Heap) (f : GoFile) : List Declared :=
  (f.elements.flatMap (FileElem.declared h)).filter (!·.isBlank)

end Gopoet
