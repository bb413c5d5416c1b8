import Verif.Model.File
/-! The text of an `ImportSpec`, which templates show. -/

namespace Gopoet

/-- `ImportSpec.String` — imports.go:372-377. -/
def ImportSpec.string (tbl : Nat → Bool) (s : ImportSpec) : GoString :=
  if s.packageAlias = [] then quote tbl s.importPath else s.packageAlias ++ b! " " ++ quote tbl s.importPath

end Gopoet
