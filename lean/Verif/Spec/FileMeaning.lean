import Verif.Spec.FileSyntax
import Verif.Spec.TypeMeaning
/-!
# What the declarations of a file mean

On the one side, what the declarations of a source file mean: the types in them, with each name
resolved through the import statements of that file. On the other side, what the elements of a file
in the heap are meant to declare: their types as they were built, with each symbol standing for the
declaration with that name in the package with that path.
-/

namespace Gopoet

/-- What is declared, without function bodies and initialisers: types (name, whether an alias, type),
constants or variables (names and type), or a function. -/
inductive DeclMeaning where
  | types (ts : List (GoString × Bool × GoType TypeIdent))
  | values (isConst : Bool) (vs : List (List GoString × Option (GoType TypeIdent)))
  | func (recv : Option (GoParam TypeIdent)) (name : GoString) (sig : GoSig TypeIdent)

/-! ### Source files -/

/-- The import statement as a spec. -/
def ImportSyn.spec (s : ImportSyn) : ImportSpec := { packageAlias := s.name.getD [], importPath := s.path }

/-- What is in scope in the source file, as a part of package `own` with the declarations `decls`. -/
def SourceFile.scope (src : SourceFile) (own : GoString) (decls : List GoString)
    (realName : GoString → GoString) : FileScope :=
  ⟨own, decls, src.imports.map ImportSyn.spec, realName⟩

/-- A parameter with its names resolved. -/
def GoParam.resolve {N M : Type} (f : N → Option M) : GoParam N → Option (GoParam M)
  | .mk n t => (t.resolve f).map (.mk n)

/-- A declared type with its names resolved. -/
def DeclaredType.meaning (f : SynName → Option TypeIdent) (d : DeclaredType) :
    Option (GoString × Bool × GoType TypeIdent) :=
  (d.type.resolve f).map fun t => (d.name, d.isAlias, t)

/-- Declared constants or variables with the names in their type resolved. -/
def ValueSyn.meaning (f : SynName → Option TypeIdent) (v : ValueSyn) :
    Option (List GoString × Option (GoType TypeIdent)) :=
  match v.type with
  | none => some (v.names, none)
  | some t => (t.resolve f).map fun t => (v.names, some t)

/-- What a declaration means. Whether declarations are grouped makes no difference. -/
def DeclSyn.meaning (f : SynName → Option TypeIdent) : DeclSyn → Option DeclMeaning
  | .type (.single d) => (d.meaning f).map fun d => .types [d]
  | .type (.group ds) => (ds.mapM (DeclaredType.meaning f)).map .types
  | .value c v => (v.meaning f).map fun v => .values c [v]
  | .values c vs => (vs.mapM (ValueSyn.meaning f)).map (.values c)
  | .func ⟨none, n, s⟩ _ => (s.resolve f).map (.func none n)
  | .func ⟨some r, n, s⟩ _ => (r.resolve f).bind fun r => (s.resolve f).map (.func (some r) n)

/-- What the declarations of a source file mean. -/
def SourceFile.meaning (src : SourceFile) (own : GoString) (decls : List GoString)
    (realName : GoString → GoString) : Option (List DeclMeaning) :=
  src.decls.mapM (DeclSyn.meaning (src.scope own decls realName).resolve)

/-- No import takes the name of a declaration of the package or of a predeclared type. -/
def SourceFile.Unshadowed (src : SourceFile) (decls : List GoString) (realName : GoString → GoString) : Prop :=
  ∀ s ∈ src.imports, s.spec.binds realName ∉ decls ∧ s.spec.binds realName ∉ universeBlock.map (·.1)

/-! ### Elements of files in the heap -/

/-- What is in scope in all files of a package. -/
def packageScope (own : GoString) (decls : List GoString) : FileScope := ⟨own, decls, [], fun _ => []⟩

/-- The symbols and basic types mean something in the package: those of the package itself are
declared, those without package are declared or predeclared, the names of the basic types are not
redeclared; other packages have a path. -/
structure FileScope.Knows (sc : FileScope) (ss : List Symbol) (ks : List ReflectKind) : Prop where
  own : ∀ s ∈ ss, s.package ≠ ⟨[], []⟩ → s.package.importPath = sc.own → s.name ∈ sc.decls
  bare : ∀ s ∈ ss, s.package = ⟨[], []⟩ → sc.lookup s.name ≠ none
  other : ∀ s ∈ ss, s.package ≠ ⟨[], []⟩ → s.package.importPath ≠ sc.own → s.package.importPath ≠ []
  basics : ∀ k ∈ ks, predeclared k ∉ sc.decls

/-- An element of an interface and what it is meant to declare. -/
inductive ElemMeans (sc : FileScope) (h : Heap) : IfaceElem → GoElem TypeIdent → Prop
  | embed {p e} : h.embeds p = some e → e.type.wellNamed = true → sc.Knows [e.type] [] →
      ElemMeans sc h (.embed p) (.embed (sc.symbolMeaning e.type))
  | method {p m} : h.methods p = some m → isIdent m.name = true → m.signature.valid = true →
      m.signature.wellNamed = true → m.signature.unproblematic = true →
      sc.Knows m.signature.symbols m.signature.basics →
      ElemMeans sc h (.method p) (.method m.name (m.signature.meaning sc.symbolMeaning))

/-- The elements of an interface, in order. -/
inductive ElemsMean (sc : FileScope) (h : Heap) : List IfaceElem → List (GoElem TypeIdent) → Prop
  | nil : ElemsMean sc h [] []
  | cons {e g es l} : ElemMeans sc h e g → ElemsMean sc h es l → ElemsMean sc h (e :: es) (g :: l)

mutual
/-- The type that a spec is meant to have, by its body or, if it is no struct or interface, by its
underlying type. -/
inductive BodyMeans (sc : FileScope) (h : Heap) : TypeSpec → GoType TypeIdent → Prop
  | struct {ts fs l} : ts.underlying = .struct fs → ts.underlying.valid = true →
      FieldsMean sc h ts.structBody l → BodyMeans sc h ts (.struct l)
  | iface {ts ms es l} : ts.underlying = .interface ms es → ts.underlying.valid = true →
      ElemsMean sc h ts.interfaceBody l → BodyMeans sc h ts (.iface l)
  | other {ts} : ts.underlying.isBlock = false → ts.underlying.onLine →
      sc.Knows ts.underlying.symbols ts.underlying.basics →
      BodyMeans sc h ts (ts.underlying.meaning sc.symbolMeaning)
/-- The fields of a struct, in order. -/
inductive FieldsMean (sc : FileScope) (h : Heap) : List Ptr → List (GoField TypeIdent) → Prop
  | nil : FieldsMean sc h [] []
  | cons {p f g ps l} : h.fields p = some f → FieldMeans sc h f g → FieldsMean sc h ps l →
      FieldsMean sc h (p :: ps) (g :: l)
/-- A field and what it is meant to declare. -/
inductive FieldMeans (sc : FileScope) (h : Heap) : FieldSpec → GoField TypeIdent → Prop
  | line {f t} : f.type = .name t → t.isBlock = false → t.onLine →
      (f.name = [] ∧ t.embeddable = true ∨ isIdent f.name = true) → sc.Knows t.symbols t.basics →
      FieldMeans sc h f (.mk (optName f.name) (t.meaning sc.symbolMeaning) (optName f.tag))
  | block {f t} : f.type = .name t → t.isBlock = true → t.valid = true → t.wellNamed = true →
      t.multiline = true → isIdent f.name = true → f.tag = [] → sc.Knows t.symbols t.basics →
      FieldMeans sc h f (.mk (some f.name) (t.meaning sc.symbolMeaning) none)
  | unnamed {f q ts t} : f.type = .spec q → h.types q = some ts → ts.name = [] → BodyMeans sc h ts t →
      isIdent f.name = true → f.tag = [] → FieldMeans sc h f (.mk (some f.name) t none)
end

/-- What a spec in a declaration is meant to declare. -/
def TypeMeans (sc : FileScope) (h : Heap) (p : Ptr) (d : GoString × Bool × GoType TypeIdent) : Prop :=
  ∃ ts t, h.types p = some ts ∧ isIdent ts.name = true ∧ BodyMeans sc h ts t ∧ d = (ts.name, ts.isAlias, t)

/-- The type of constants or variables. -/
inductive TypeRef.Means (sc : FileScope) : TypeRef → Option (GoType TypeIdent) → Prop
  | nil : Means sc .nil none
  | name {t} : t.onLine → sc.Knows t.symbols t.basics → Means sc (.name t) (some (t.meaning sc.symbolMeaning))

/-- What constants or variables are meant to be. A variable has a type or an initialiser, a constant with
a type has an initialiser. -/
def ValueMeans (sc : FileScope) (h : Heap) (isConst : Bool) (p : Ptr)
    (d : List GoString × Option (GoType TypeIdent)) : Prop :=
  ∃ c t, h.values p = some c ∧ c.names ≠ [] ∧ (∀ n ∈ c.names, isIdent n = true) ∧ c.type.Means sc t ∧
    (if isConst then t.isNone ∨ c.init.isSome else t.isSome ∨ c.init.isSome) ∧ d = (c.names, t)

/-- The meaning of the receiver of a method: a type of the package. -/
def ReceiverSpec.meaning (sc : FileScope) (r : ReceiverSpec) : GoParam TypeIdent :=
  .mk (optName r.name) (if r.isPointer then .ptr (.name (.declared sc.own r.type))
    else .name (.declared sc.own r.type))

/-- What an element of a file is meant to declare, going by the input. Named `*TypeSpec`s are not used
as types of constants, variables or fields (they are not imported, see C30). -/
inductive Intends (sc : FileScope) (h : Heap) : FileElem → DeclMeaning → Prop
  | types {p d ts} : h.typeDecls p = some d → d.types ≠ [] ∨ d.comment ≠ [] →
      List.Forall₂ (TypeMeans sc h) d.types ts → Intends sc h (.types p) (.types ts)
  | values {p d vs} : h.valueDecls p = some d → d.specs ≠ [] ∨ d.comment ≠ [] →
      List.Forall₂ (ValueMeans sc h (d.kind == .const)) d.specs vs →
      Intends sc h (.values p) (.values (d.kind == .const) vs)
  | func {p f} : h.funcs p = some f → isIdent f.name = true → f.signature.valid = true →
      f.signature.wellNamed = true → f.signature.unproblematic = true →
      (∀ r, f.receiver = some r → (r.name = [] ∨ isIdent r.name = true) ∧ isIdent r.type = true ∧
        r.type ∈ sc.decls) →
      sc.Knows f.signature.symbols f.signature.basics →
      Intends sc h (.func p) (.func (f.receiver.map (ReceiverSpec.meaning sc)) f.name
        (f.signature.meaning sc.symbolMeaning))

/-- The code in an element, as it is on the heap, has a text: initialisers are expressions as far as their
brackets go, and function bodies are lines. -/
inductive CodeReads (env : Env) (h : Heap) : FileElem → Prop
  | types {p} : CodeReads env h (.types p)
  | values {p d} : h.valueDecls p = some d →
      (∀ q ∈ d.specs, ∀ c, h.values q = some c → ∃ i, InitReads env h c.init i) →
      CodeReads env h (.values p)
  | func {p f code body} : h.funcs p = some f → codeText env h f.code = .ok code → BodyToks code body →
      CodeReads env h (.func p)

end Gopoet
