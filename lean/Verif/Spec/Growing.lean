import Verif.Spec.Independent
import Verif.Spec.Imports
/-!
# Files with fewer elements

For C71: what a file would be if only some of its elements had been added to it.
-/

namespace Gopoet

/-- The heap in which the file has only these elements. -/
def Heap.withElements (h : Heap) (p : Ptr) (es : List FileElem) : Heap :=
  { h with files := fun q => if q = p then (h.files q).map fun f => { f with elements := es } else h.files q }

/-- The later elements contain nothing that the earlier ones contain or show. -/
def SharesNothing (h : Heap) (es more : List FileElem) : Prop :=
  ∀ x, (∃ e ∈ more, MadeOf h e x) → ∀ e ∈ es, ¬ MadeOf h e x ∧ ¬ Shows h e x

end Gopoet
