import Mathlib.Data.List.Defs
import Verif.Model.File
import Verif.Spec.Output
import Verif.Spec.StringLit
/-!
# What it means to add specs to files

Operations on files and declarations, and which specs an operation adds to which file.
-/

namespace Gopoet

/-- An operation on files and declarations. -/
inductive AddOp where
  /-- `AddElement` -/
  | element (f : Ptr) (e : FileElem)
  /-- `AddConst`, `AddVar` -/
  | value (f : Ptr) (kind : ValueKind) (s : Ptr)
  /-- `AddType` -/
  | type (f : Ptr) (t : Ptr)
  /-- `ConstDecl.AddConst`, `VarDecl.AddVar`: to a declaration, not to a file -/
  | declValue (d s : Ptr)
  /-- `TypeDecl.AddType` -/
  | declType (d t : Ptr)
  /-- the file is written; it does not matter whether that succeeds -/
  | render (env : Env) (fuel : Nat) (f : Ptr)

/-- Executes an operation. -/
def AddOp.exec : AddOp → Heap → Outcome Heap
  | .element f e, h => addElement h f e
  | .value f k s, h => addValue h f k s
  | .type f t, h => addType h f t
  | .declValue d s, h => declAddValue h d s
  | .declType d t, h => declAddType h d t
  | .render env fuel f, h => .ok (renderFile env fuel f h).2

/-- Executes operations in order. -/
def AddOp.run : List AddOp → Heap → Outcome Heap
  | [], h => .ok h
  | op :: ops, h => (op.exec h).bind (run ops)

/-- The operation, executed in `h`, adds the spec to the file: the spec is part of the element that
is added. -/
def AddOp.Adds (h : Heap) : AddOp → SpecRef → Ptr → Prop
  | .element f (.values d), .value p, g => g = f ∧ ∃ D, h.valueDecls d = some D ∧ p ∈ D.specs
  | .element f (.types d), .type p, g => g = f ∧ ∃ D, h.typeDecls d = some D ∧ p ∈ D.types
  | .element f (.func q), .func p, g => g = f ∧ p = q
  | .value f _ s, .value p, g => g = f ∧ p = s
  | .type f t, .type p, g => g = f ∧ p = t
  | _, _, _ => False

/-- No operation adds the spec to another file than `f`. -/
def StaysIn (r : SpecRef) (f : Ptr) : List AddOp → Heap → Prop
  | [], _ => True
  | op :: ops, h => (∀ g, op.Adds h r g → g = f) ∧ ∀ h', op.exec h = .ok h' → StaysIn r f ops h'

/-- No operation adds the spec to a file. -/
def NeverAdded (r : SpecRef) : List AddOp → Heap → Prop
  | [], _ => True
  | op :: ops, h => (∀ g, ¬ op.Adds h r g) ∧ ∀ h', op.exec h = .ok h' → NeverAdded r ops h'

/-! ### The layout of a file -/

/-- `text` is the comment `c` as line comments: nothing for an empty comment, else lines with the
marker `// ` from which the comment can be read back. -/
inductive CommentBlock : GoString → GoString → Prop
  | none : CommentBlock [] []
  | lines {c text ls} : c ≠ [] → uncomment none text = some ls → joinWith (b! "\n") ls = c →
      CommentBlock c text

/-- The text is a string literal with that value. -/
def Literal (value lit : GoString) : Prop := ∀ rest, stringLit (lit ++ rest) = some (value, rest)

/-- The text imports that package, with that alias if there is one. -/
def ImportLine (s : ImportSpec) (text : GoString) : Prop :=
  ∃ lit, Literal s.importPath lit ∧
    text = b! "import " ++ (if s.packageAlias = [] then [] else s.packageAlias ++ b! " ") ++ lit ++ b! "\n"

/-- `clause` is the package clause, with the canonical import path if there is one. -/
def PackageClause (f : GoFile) (clause : GoString) : Prop :=
  (f.canonicalImportPath = [] ∧ clause = b! "package " ++ f.packageName ++ b! "\n") ∨
  f.canonicalImportPath ≠ [] ∧ ∃ lit, Literal f.canonicalImportPath lit ∧
    clause = b! "package " ++ f.packageName ++ b! " // import " ++ lit ++ b! "\n"

/-- `text` consists of the parts of the file in their order: file comment and an empty line, package
comment, package clause, an empty line, import statements, and elements, each after an empty line. -/
def LaidOut (f : GoFile) (elems : List GoString) (text : GoString) : Prop :=
  ∃ fileDoc pkgDoc clause imports,
    CommentBlock f.fileComment fileDoc ∧ CommentBlock f.packageComment pkgDoc ∧
    PackageClause f clause ∧ List.Forall₂ ImportLine f.imports.importSpecs imports ∧
    text = fileDoc ++ (if f.fileComment = [] then [] else b! "\n")
      ++ pkgDoc ++ clause ++ b! "\n" ++ imports.flatten ++ elems.flatMap (b! "\n" ++ ·)

/-! ### The layout of a declaration -/

/-- The text of a declaration with a keyword, a comment, and specs given by their comment and text:
a group if there are several specs or if the declaration has a comment, else a single declaration with
the comment of its spec above. -/
inductive DeclText (kw : GoString) : GoString → List (GoString × GoString) → GoString → Prop
  | group {c specs doc docs} : (specs.length > 1 ∨ c ≠ []) → CommentBlock c doc →
      List.Forall₂ (fun s d => CommentBlock s.1 d) specs docs →
      DeclText kw c specs (doc ++ kw ++ b! " (\n"
        ++ (List.zipWith (fun d s => d ++ s.2) docs specs).flatten ++ b! ")\n")
  | single {sc body doc} : CommentBlock sc doc →
      DeclText kw [] [(sc, body)] (doc ++ kw ++ b! " " ++ body)

end Gopoet
