import Verif.Spec.FileNames
/-!
# Go's rules for the names in a package

As in `Verif.Spec.FileNames`, for all files of a package together. A package is given by its source files alone.
-/

namespace Gopoet

/-- What the files of a package declare together, besides their imports. -/
def packageDeclared (srcs : List SourceFile) : List Declared := srcs.flatMap SourceFile.declared

/-- The names that can be used in all files of the package. -/
def packageNames (srcs : List SourceFile) : List GoString := (packageDeclared srcs).filterMap fun
  | .name n => some n
  | .method .. => none

/-- The source files make up a package, as far as names go. -/
structure LegalPackage (srcs : List SourceFile) (name : GoString) (realName : GoString → GoString) : Prop where
  /-- All files have the same package clause. -/
  package : ∀ src ∈ srcs, src.package = name
  /-- Nothing is declared twice. -/
  once : (packageDeclared srcs).Nodup
  /-- Only functions are called `init`. -/
  init : .name (b! "init") ∉ packageDeclared srcs
  /-- The imports of a file have different names. -/
  imports : ∀ src ∈ srcs, (src.imports.map (·.spec.binds realName)).Nodup
  /-- No import has the name of a declaration in any of the files, or is called `init`. -/
  apart : ∀ src ∈ srcs, ∀ s ∈ src.imports, .name (s.spec.binds realName) ∉ packageDeclared srcs ∧
    s.spec.binds realName ≠ b! "init"

end Gopoet
