import Verif.Spec.Visited
import Verif.Spec.Imports
/-!
# The names that packages would have

For C70: the name by which a package would be imported if nothing else were imported.
-/

namespace Gopoet

/-- The name that a package would have in a file of its own: the one that is given for it, or else the one that its
path ends with. -/
def Package.ownName (pk : Package) : GoString := if pk.name = [] then pathBase pk.importPath else pk.name

/-- A package that has to be imported for the first time when the file is written. -/
def NewlyVisited (h : Heap) (f : GoFile) (pk : Package) : Prop :=
  (∃ e ∈ f.elements, Visited h e pk) ∧ pk.importPath ≠ [] ∧ pk.importPath ≠ f.imports.pkgPath ∧
    pk.importPath ∉ f.imports.importedPaths

/-- No two packages that the file has to import have the same name, and none has the name of an import that the file
already has. -/
def NoNameTwice (h : Heap) (f : GoFile) : Prop :=
  (∀ a b, NewlyVisited h f a → NewlyVisited h f b → a.ownName = b.ownName → a.importPath = b.importPath) ∧
  ∀ a, NewlyVisited h f a → ∀ y ∈ f.imports.importedPaths, f.imports.qualifierOf y ≠ a.ownName

/-- The file has each package under one name only. -/
def NamedOnce (h : Heap) (f : GoFile) : Prop :=
  ∀ a b, NewlyVisited h f a → NewlyVisited h f b → a.importPath = b.importPath → a.ownName = b.ownName

end Gopoet
