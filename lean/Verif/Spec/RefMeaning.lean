import Verif.Spec.Code
import Verif.Spec.TypeMeaning
/-!
# What a name in the code of a Go file refers to

Names, qualified names and method expressions, resolved by Go's scoping rules: the file block (imports), the package
block (the declarations of the own package) and the universe block (all predeclared names, not only types).
-/

namespace Gopoet

/-- The predeclared names. -/
def predeclaredNames : List GoString :=
  universeBlock.map (·.1) ++
    [b! "true", b! "false", b! "iota", b! "nil", b! "append", b! "cap", b! "close", b! "complex", b! "copy", b! "delete",
     b! "imag", b! "len", b! "make", b! "new", b! "panic", b! "print", b! "println", b! "real", b! "recover"]

/-- A constant, variable, type or function: a predeclared one, or one that a package declares. -/
inductive Entity where
  | predeclared (name : GoString)
  | declared (path name : GoString)
  deriving DecidableEq, Repr

/-- What a name can refer to. -/
inductive Referent where
  | package (path : GoString)
  | entity (e : Entity)
  | method (type : Entity) (name : GoString)
  deriving DecidableEq, Repr

/-- The parts of a text between dots. -/
def splitDots : GoString → List GoString
  | [] => [[]]
  | c :: s =>
    if c = dot then [] :: splitDots s else
      match splitDots s with
      | [] => [[c]]
      | w :: ws => (c :: w) :: ws

/-- What a bare name refers to in the package and universe blocks. -/
def FileScope.entityNamed (sc : FileScope) (n : GoString) : Option Entity :=
  if n ∈ sc.decls then some (.declared sc.own n) else if n ∈ predeclaredNames then some (.predeclared n) else none

/-- What a text of the form `a`, `a.b` or `a.b.c` refers to in a file. A name that imports bind is a package, if there is
just one. -/
def FileScope.read (sc : FileScope) (s : GoString) : Option Referent :=
  if (splitDots s).all isIdent then
    match splitDots s with
    | [] => none
    | a :: rest =>
      match resolveQualifier sc.realName sc.imports a, rest with
      | [p], [] => some (.package p)
      | [p], [n] => some (.entity (.declared p n))
      | [p], [t, m] => some (.method (.declared p t) m)
      | [], [] => (sc.entityNamed a).map .entity
      | [], [m] => (sc.entityNamed a).map (.method · m)
      | _, _ => none
  else none

/-- What a symbol stands for: what its package declares, or, without package, what the bare name is in the package and
universe blocks. -/
def FileScope.intended (sc : FileScope) (s : Symbol) : Option Entity :=
  if s.package = ⟨[], []⟩ then sc.entityNamed s.name else some (.declared s.package.importPath s.name)

/-- In the file, the text refers to what the reference stands for. -/
def FileScope.Means (sc : FileScope) (s : GoString) : Reference → Prop
  | .package p => sc.read s = some (.package p.importPath)
  | .symbol x => ∃ e, sc.intended x = some e ∧ sc.read s = some (.entity e)
  | .method m => ∃ e, sc.intended m.type = some e ∧ sc.read s = some (.method e m.method)
  | .type t => sc.typeMeaning s = some (t.meaning sc.symbolMeaning)

/-- If the symbol is written without qualifier: its name is declared or predeclared, and no import takes it. -/
structure FileScope.Reaches (sc : FileScope) (s : Symbol) : Prop where
  own : s.package ≠ ⟨[], []⟩ → s.package.importPath = sc.own → s.name ∈ sc.decls
  bare : s.package = ⟨[], []⟩ → s.name ∈ sc.decls ∨ s.name ∈ predeclaredNames
  unshadowed : s.package = ⟨[], []⟩ ∨ s.package.importPath = sc.own → ∀ p ∈ sc.imports, p.binds sc.realName ≠ s.name

/-- The symbols in the reference. -/
def Reference.symbols : Reference → List Symbol
  | .package _ => []
  | .symbol s => [s]
  | .method m => [m.type]
  | .type t => t.symbols

/-- All names in the reference are identifiers. -/
def Reference.wellNamed : Reference → Bool
  | .package _ => true
  | .symbol s => isIdent s.name
  | .method m => isIdent m.type.name && isIdent m.method
  | .type t => t.wellNamed

end Gopoet
