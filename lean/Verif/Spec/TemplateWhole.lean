import Verif.Model.TemplateText
import Verif.Model.ImportText
import Verif.Spec.FileSyntax
/-!
# Files that are written by a template alone (doc.go:88-98)

The program calls `QualifyTemplateData` of an `Imports`, then its `ImportSpecs`, and executes a template with both.
-/

namespace Gopoet

/-- An `ImportSpec` in template data: a struct with two strings. -/
def ImportSpec.value (id : GoString → Nat) (s : ImportSpec) : TVal :=
  .struct [(true, .scalar (id s.packageAlias)), (true, .scalar (id s.importPath))]

/-- The data that the template gets:
`struct { Imports []ImportSpec; Data interface{} }{imports.ImportSpecs(), imports.QualifyTemplateData(data)}`. -/
def wholeData (id : GoString → Nat) (specs : List ImportSpec) (data : TVal) : TVal :=
  .struct [(true, .slice (specs.map (ImportSpec.value id))), (true, .iface acceptsAll data)]

/-- The template:
```
package name

import (
{{range .Imports}}	{{.}}
{{end}})

{{template "body" .Data}}
``` -/
def wholeFile (name : GoString) (body : List TNode) : List TNode :=
  [.text (b! "package " ++ name ++ b! "\n\nimport (\n"),
   .range ⟨none, [.field 0]⟩ [.text (b! "\t"), .show ⟨none, []⟩, .text (b! "\n")] [],
   .text (b! ")\n\n"),
   .call ⟨none, [.field 1]⟩ body]

/-- Reads a text as declarations, without package clause and imports. -/
def parseDeclarations (s : GoString) : Option (List DeclSyn) := do
  let toks ← lex s
  parseDecls (4 * (insertSemis toks).length + 4) (insertSemis toks)

end Gopoet
