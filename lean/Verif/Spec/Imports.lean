import Verif.Model.Imports
import Verif.Spec.Types
/-!
# Specification vocabulary for imports: call histories and Go's scoping rule
-/

namespace Gopoet

/-- One call of an exported method of `*Imports` that can register imports. Calls that panic are
allowed (their effects up to the panic count). -/
inductive Call where
  | registerImport (importPath packageName : GoString)
  | registerImportForPackage (pkg : Package)
  | ensureImported (sym : Symbol)
  | ensureTypeImported (t : TypeName)
  | ensureAllTypesImported (s : Signature)
  | prefixForPackage (importPath : GoString)
  | qualify (sym : Symbol)
  | qualifyType (t : TypeName)
  | qualifySignature (s : Signature)

/-- The state of the Imports after one call. -/
def Call.exec (i : Imports) : Call → Imports
  | .registerImport p n => (Imports.registerImport p n i).2
  | .registerImportForPackage pkg => (Imports.registerImportForPackage pkg i).2
  | .ensureImported s => (Imports.ensureImported s i).2
  | .ensureTypeImported t => (Imports.ensureTypeImported t i).2
  | .ensureAllTypesImported s => (Imports.ensureAllTypesImported s i).2
  | .prefixForPackage p => (Imports.prefixFor p i).2
  | .qualify s => (Imports.qualifyOnly s i).2
  | .qualifyType t => (Imports.qualifyTypeOnly t i).2
  | .qualifySignature s => (Imports.qualifySignatureOnly s i).2

/-- The state after a history of calls. -/
def Imports.after (i : Imports) (history : List Call) : Imports := history.foldl Call.exec i

/-- The states an Imports created for package `own` can be in. -/
def ReachableFor (own : GoString) (i : Imports) : Prop :=
  ∃ history, i = (newImportsFor own).after history

/-- A reachable state of any Imports. -/
def Reachable (i : Imports) : Prop := ∃ own, ReachableFor own i

/-- The packages of symbols; symbols without package (predeclared names) do not count. -/
def packagesOf (l : List Symbol) : List Package :=
  (l.map (·.package)).filter (fun p => decide (p ≠ ⟨[], []⟩))

/-- The packages (import path, package name) that a call asks to register. -/
def Call.packages : Call → List Package
  | .registerImport p n => [⟨p, n⟩]
  | .registerImportForPackage pkg => [pkg]
  | .ensureImported s => packagesOf [s]
  | .ensureTypeImported t => packagesOf t.symbols
  | .ensureAllTypesImported s => packagesOf s.symbols
  | _ => []

/-- The import paths listed by ImportSpecs. -/
def Imports.importedPaths (i : Imports) : List GoString := i.importSpecs.map (·.importPath)

/-- The name by which code written with the imports qualifies what is in the package with the given
path: none in the package itself. -/
def Imports.qualifierOf (i : Imports) (p : GoString) : GoString :=
  if p = i.pkgPath then [] else
    match i.importsByPath.get p with
    | some d => d.packageName
    | none => []

/-- The candidate names for a package: `base`, `base1`, `base2`, ... -/
def candidate (base : GoString) : Nat → GoString
  | 0 => base
  | n + 1 => base ++ decDigits (n + 1)

/-- Go's rule for the name an import declaration binds in the file block: the alias if there is
one, else the imported package's own name. -/
def ImportSpec.binds (realName : GoString → GoString) (s : ImportSpec) : GoString :=
  if s.packageAlias = [] then realName s.importPath else s.packageAlias

/-- What a qualifier refers to in a file with the given import declarations: the paths of the
declarations that bind it. Go rejects a file unless this is a single path. -/
def resolveQualifier (realName : GoString → GoString) (specs : List ImportSpec)
    (qualifier : GoString) : List GoString :=
  (specs.filter (fun s => decide (s.binds realName = qualifier))).map (·.importPath)

/-- Package names are given truthfully: each is empty ("unknown") or the package's real name. -/
def Truthful (realName : GoString → GoString) (pkgs : List Package) : Prop :=
  ∀ p ∈ pkgs, p.name = [] ∨ p.name = realName p.importPath

/-- The specification of qualification: what a symbol must look like in a file whose own package
is `own` and in which `nameOf` gives the package name used for each import path. -/
def Symbol.withPrefix (own : GoString) (nameOf : GoString → GoString) (s : Symbol) : Symbol :=
  if s.package.name = [] ∧ s.package.importPath = [] then s
  else if s.package.importPath = own then { s with package := ⟨s.package.importPath, []⟩ }
  else { s with package := ⟨s.package.importPath, nameOf s.package.importPath⟩ }

end Gopoet
