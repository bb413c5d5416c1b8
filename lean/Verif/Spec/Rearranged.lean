import Verif.Spec.Growing
import Verif.Spec.Renamed
/-!
# Files with the same elements in another order

For C73: when the elements of a file have nothing in common, and when two runs give packages the same names.
-/

namespace Gopoet

/-- No two of the elements have anything in common: none contains what another one contains or shows. -/
def NothingInCommon (h : Heap) (es : List FileElem) : Prop :=
  es.Pairwise fun a b => SharesNothing h [a] [b] ∧ SharesNothing h [b] [a]

/-- What both import has the same name in both. -/
def SameQualifiers (i j : Imports) : Prop :=
  ∀ x ∈ i.importedPaths, x ∈ j.importedPaths → i.qualifierOf x = j.qualifierOf x

/-- The file has each package that it has to import in one form only, also as regards its name. -/
def OnePackageEach (h : Heap) (f : GoFile) : Prop :=
  ∀ a b, NewlyVisited h f a → NewlyVisited h f b → a.importPath = b.importPath → a = b

end Gopoet
