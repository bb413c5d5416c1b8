import Verif.Base
/-!
# Pieces of text: `strings.Split`, `strings.Join` and comments
-/

namespace Gopoet

/-- The newline byte. -/
abbrev newline : UInt8 := 10

/-- `strings.Split(s, sep)` for a separator of one byte: the pieces between the separators (at
least one). -/
def splitOn (sep : UInt8) : GoString → List GoString
  | [] => [[]]
  | c :: s =>
    if c = sep then [] :: splitOn sep s
    else
      match splitOn sep s with
      | [] => [[c]]
      | p :: ps => (c :: p) :: ps

/-- `strings.Join(parts, sep)`. -/
def joinWith (sep : GoString) : List GoString → GoString
  | [] => []
  | [p] => p
  | p :: q :: ps => p ++ sep ++ joinWith sep (q :: ps)

/-- `writeComment` — model.go:377-384: the text appended to the buffer. `%s` copies a string
as it is. -/
def writeComment (comment : GoString) : GoString :=
  if comment ≠ [] then
    (splitOn newline comment).flatMap fun line => b! "// " ++ line ++ b! "\n"
  else []

end Gopoet
