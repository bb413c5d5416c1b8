import Verif.Base
/-!
# Model of the parts of Go's `path` and `path/filepath` that gopoet calls

The standard library is not part of /repo; these functions transcribe its documented
algorithms (Unix separator). They are part of the trusted base.
-/

namespace Gopoet

/-- The path separator `/`. -/
abbrev slash : UInt8 := 47
/-- The byte `.`. -/
abbrev dot : UInt8 := 46

/-- `path.Base` (called in imports.go:84 and model.go:44) and `filepath.Base` (model.go:283) on
Unix: strip trailing slashes, keep what follows the last slash; `"."` for the empty path and
`"/"` for a path of slashes only. -/
def pathBase (p : GoString) : GoString :=
  if p = [] then b! "."
  else
    let stripped := (p.reverse.dropWhile (· == slash)).reverse
    let last := (stripped.reverse.takeWhile (· != slash)).reverse
    if last = [] then b! "/" else last

/-- `filepath.Ext` (model.go:286): the suffix beginning at the last dot of the last element, or
the empty string. -/
def filepathExt (p : GoString) : GoString :=
  let last := p.reverse.takeWhile (· != slash)
  if dot ∈ last then (last.takeWhile (· != dot)).reverse.cons dot else []

end Gopoet
