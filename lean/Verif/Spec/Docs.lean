import Verif.Spec.Directives
import Verif.Model.Heap
/-!
# Doc comments

As go/doc and go/parser understand them: the line comments directly above a declaration, without an empty line
between, document it.
-/

namespace Gopoet

/-- A line that is only a line comment. -/
def isCommentLine (l : GoString) : Bool := (b! "//").isPrefixOf (l.dropWhile fun c => c == 32 || c == 9)

/-- The lines of the comment directly above what follows `pre` at the beginning of a line. -/
def docAbove (pre : GoString) : List GoString :=
  match (splitOn newline pre).reverse with
  | [] :: ls => (ls.takeWhile isCommentLine).reverse
  | _ => []

/-- The comment as it should be found in the text. -/
def docLines (c : GoString) : List GoString := (commentLines c).map (b! "// " ++ ·)

/-- The element is a declaration with that keyword, and has that comment: for a declaration without own comment
of one spec, that is the comment of the spec. -/
def FileElem.Commented (h : Heap) : FileElem → GoString → GoString → Prop
  | .values p, kw, c => ∃ d, h.valueDecls p = some d ∧ kw = (match d.kind with | .const => b! "const " | .var => b! "var ") ∧
      ((d.specs.length > 1 ∨ d.comment ≠ []) ∧ c = d.comment ∨
        d.comment = [] ∧ ∃ s v, d.specs = [s] ∧ h.values s = some v ∧ c = v.comment)
  | .types p, kw, c => ∃ d, h.typeDecls p = some d ∧ kw = b! "type " ∧
      ((d.types.length > 1 ∨ d.comment ≠ []) ∧ c = d.comment ∨
        d.comment = [] ∧ ∃ s t, d.types = [s] ∧ h.types s = some t ∧ c = t.comment)
  | .func p, kw, c => ∃ f, h.funcs p = some f ∧ kw = b! "func " ∧ c = f.comment

end Gopoet
