import Verif.Spec.FileNames
import Verif.Spec.RefMeaning
/-!
# What a name in the body of a function refers to

From the language specification ("Declarations and scope"): the scope of an identifier denoting a method
receiver, function parameter, or result variable is the function body. So in the body such a name hides
an import, a declaration of the package, or something predeclared that has the same name. The blank
identifier declares nothing. What the code of the body declares itself is not considered.
-/

namespace Gopoet

/-- The name of a parameter. -/
def GoParam.ident {N : Type} : GoParam N → Option GoString
  | .mk n _ => n

/-- The parameters and results. -/
def GoSig.variables {N : Type} : GoSig N → List (GoParam N)
  | .mk ps _ rs => ps ++ rs

/-- The names that the head of a function declares in its body. -/
def FuncHeader.locals (hd : FuncHeader) : List GoString :=
  ((hd.recv.toList ++ hd.sig.variables).filterMap GoParam.ident).filter (· ≠ b! "_")

/-- What a text of the form `a`, `a.b` or `a.b.c` refers to in the body of a function: nothing outside of
the function, if `a` is declared by the function. -/
def FileScope.readIn (sc : FileScope) (locals : List GoString) (s : GoString) : Option Referent :=
  match splitDots s with
  | [] => none
  | a :: _ => if a ∈ locals then none else sc.read s

/-- What a type name refers to in the body of a function. -/
def FileScope.resolveIn (sc : FileScope) (locals : List GoString) : SynName → Option TypeIdent
  | (some q, n) => if q ∈ locals then none else sc.resolve (some q, n)
  | (none, n) => if n ∈ locals then none else sc.resolve (none, n)

/-- The meaning of a text as a type in the body of a function. -/
def FileScope.typeMeaningIn (sc : FileScope) (locals : List GoString) (s : GoString) : Option (GoType TypeIdent) :=
  (parseGoType s).bind (GoType.resolve (sc.resolveIn locals))

/-- In the body of a function, the text refers to what the reference stands for. -/
def FileScope.MeansIn (sc : FileScope) (locals : List GoString) (s : GoString) : Reference → Prop
  | .package p => sc.readIn locals s = some (.package p.importPath)
  | .symbol x => ∃ e, sc.intended x = some e ∧ sc.readIn locals s = some (.entity e)
  | .method m => ∃ e, sc.intended m.type = some e ∧ sc.readIn locals s = some (.method e m.method)
  | .type t => sc.typeMeaningIn locals s = some (t.meaning sc.symbolMeaning)

/-! ### In the heap -/

/-- The names that a function spec declares in its body. -/
def FuncSpec.locals (f : FuncSpec) : List GoString :=
  ((f.receiver.map (·.name)).toList ++ f.signature.args.map (·.name) ++ f.signature.results.map (·.name)).filter
    fun n => n ≠ [] ∧ n ≠ b! "_"

/-- The name that is written first for a symbol, in a file with the given imports. -/
def Symbol.headIn (i : Imports) (s : Symbol) : GoString :=
  if s.package = ⟨[], []⟩ ∨ s.package.importPath = i.pkgPath then s.name else i.qualifierOf s.package.importPath

/-- The names outside of the function that what is written for a reference relies on. -/
def Reference.headsIn (i : Imports) : Reference → List GoString
  | .package p => [i.qualifierOf p.importPath]
  | .symbol s => [s.headIn i]
  | .method m => [m.type.headIn i]
  | .type t => t.symbols.map (·.headIn i) ++ t.basics.map predeclared

/-- The names in a reference that are written without qualifier in a file of the package `own`. -/
def Reference.bareNames (own : GoString) (r : Reference) : List GoString :=
  (r.symbols.filter fun s => s.package = ⟨[], []⟩ ∨ s.package.importPath = own).map (·.name) ++
    match r with
    | .type t => t.basics.map predeclared
    | _ => []

/-- The names that the functions of a file declare in their bodies. -/
def GoFile.locals (h : Heap) (f : GoFile) : List GoString :=
  f.elements.flatMap fun
    | .func p => match h.funcs p with
      | some fn => fn.locals
      | none => []
    | _ => []

end Gopoet
