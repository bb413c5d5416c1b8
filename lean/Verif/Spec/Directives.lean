import Verif.Model.Text
/-!
# Comments that are more than comments: directives and build constraints

As described in the documentation of cmd/compile ("Compiler Directives"), go/ast (`CommentGroup.Text`) and
go/build ("Build Constraints").
-/

namespace Gopoet

/-- The lines of a comment: none if it is empty. -/
def commentLines (c : GoString) : List GoString := if c = [] then [] else splitOn newline c

/-- `a-z` and `0-9`. -/
def isDirectiveChar (c : UInt8) : Bool := (97 ≤ c && c ≤ 122) || (48 ≤ c && c ≤ 57)

/-- A line comment that tools take for a directive: `//line `, `//extern `, `//export ` and all of the form
`//[a-z0-9]+:[a-z0-9]`. -/
def isDirective : GoString → Bool
  | 47 :: 47 :: c =>
    (b! "line ").isPrefixOf c || (b! "extern ").isPrefixOf c || (b! "export ").isPrefixOf c ||
      match c.takeWhile isDirectiveChar, c.dropWhile isDirectiveChar with
      | _ :: _, 58 :: d :: _ => isDirectiveChar d
      | _, _ => false
  | _ => false

/-- Removes white space at both ends, whatever else than ASCII is taken for white space. -/
structure TrimsSpace (trim : GoString → GoString) : Prop where
  /-- nothing remains of nothing -/
  blank : trim [] = []
  /-- nothing is added or changed -/
  inside : ∀ s, trim s <:+: s
  /-- printable characters remain, and what is between them -/
  keeps : ∀ c d s, 33 ≤ c ∧ c ≤ 126 → 33 ≤ d ∧ d ≤ 126 →
    [c, d] <+: trim (c :: d :: s) ∧ trim (c :: d :: s) <+: c :: d :: s

/-- Removes ASCII white space at both ends. -/
def trimAscii (s : GoString) : GoString :=
  ((s.dropWhile (fun c => c == 32 || (9 ≤ c && c ≤ 13))).reverse.dropWhile
    (fun c => c == 32 || (9 ≤ c && c ≤ 13))).reverse

/-- The text after a keyword such as `+build` or `//go:build` in a trimmed line shows that it is that keyword
and not a longer word. -/
def endsWord (trim : GoString → GoString) (rest : GoString) : Bool :=
  decide (rest = []) || decide (trim rest ≠ rest)

/-- The trimmed line is a constraint of the old form, `// +build`. -/
def isPlusBuild (trim : GoString → GoString) : GoString → Bool
  | 47 :: 47 :: c => (b! "+build").isPrefixOf (trim c) && endsWord trim ((trim c).drop 6)
  | _ => false

/-- The trimmed line is a constraint of the new form, `//go:build`. -/
def isGoBuild (trim : GoString → GoString) (l : GoString) : Bool :=
  (b! "//go:build").isPrefixOf l && endsWord trim (l.drop 10)

/-- The lines at the beginning of a file that are empty or line comments, trimmed. -/
def leadingLines (trim : GoString → GoString) (text : GoString) : List GoString :=
  ((splitOn newline text).map trim).takeWhile fun l => decide (l = []) || (b! "//").isPrefixOf l

/-- The constraints of the new form in a file (without those next to comments of the form `/* */`). -/
def goBuildLines (trim : GoString → GoString) (text : GoString) : List GoString :=
  (leadingLines trim text).filter (isGoBuild trim)

/-- The constraints of the old form in a file: they count only if an empty line follows before the first line
that is neither empty nor a comment. -/
def plusBuildLines (trim : GoString → GoString) (text : GoString) : List GoString :=
  ((leadingLines trim text).reverse.dropWhile (fun l => decide (l ≠ []))).reverse.filter (isPlusBuild trim)

end Gopoet
