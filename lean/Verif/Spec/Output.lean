import Verif.Model.Output
/-!
# Specification vocabulary for comments, paths and the writing of files
-/

namespace Gopoet

/-! ### Comments -/

/-- Text that the Go scanner skips: lines that begin with `//` and end at the first newline. -/
inductive CommentText : GoString → Prop
  | nil : CommentText []
  | line {l rest : GoString} : (10 : UInt8) ∉ l → CommentText rest →
      CommentText (b! "//" ++ l ++ b! "\n" ++ rest)

/-- Reads a block of `// ` comment lines back: the lines without marker, separated by newlines.
`cur` is the part of the current line read so far, `none` at the beginning of a line. -/
def uncomment : Option GoString → GoString → Option (List GoString)
  | none, [] => some []
  | some _, [] => none
  | none, 47 :: 47 :: 32 :: s => uncomment (some []) s
  | none, _ :: _ => none
  | some cur, c :: s =>
    if c = 10 then (uncomment none s).map (cur :: ·) else uncomment (some (cur ++ [c])) s

/-! ### Paths -/

/-- The elements of a slash-separated path: the maximal non-empty runs without slash, except `.`. -/
def pathElems (p : GoString) : List GoString :=
  (splitOn slash p).filter fun e => decide (e ≠ []) && decide (e ≠ b! ".")

/-- The path with the given elements. -/
def pathOf (elems : List GoString) : GoString := joinWith [slash] elems

/-! ### Writing files -/

/-- What may happen when files with the given paths are written, `n` calls having been made before:
the calls, in order, and the outcome. The writer of a file is named by the number of calls up to its
opening. Each clause but `written` ends the run. -/
inductive Session : List GoString → Nat → List Event → Outcome (Option Err) → Prop
  | done {n} : Session [] n [] (.ok none)
  /-- the file is opened, written once, and closed; what `Close` answers is ignored, here and below -/
  | written {p ps n d c evs o} : Session ps (n + 3) evs o →
      Session (p :: ps) n (.open p none :: .write (n + 1) d none :: .close (n + 1) c :: evs) o
  /-- opening fails: that error is returned -/
  | openFails {p ps n e} : Session (p :: ps) n [.open p (some e)] (.ok (some (.external e)))
  /-- writing fails: the writer is closed and that error is returned -/
  | writeFails {p ps n d e c} : Session (p :: ps) n
      [.open p none, .write (n + 1) d (some e), .close (n + 1) c] (.ok (some (.external e)))
  /-- formatting fails: the writer is closed, nothing is written -/
  | formatFails {p ps n t c} : Session (p :: ps) n
      [.open p none, .close (n + 1) c] (.ok (some (.format t)))
  /-- rendering panics: the writer is closed -/
  | panics {p ps n c} : Session (p :: ps) n [.open p none, .close (n + 1) c] .panic
  /-- rendering does not end -/
  | hangs {p ps n} : Session (p :: ps) n [.open p none] .hang

/-- The number of writers opened. -/
def opened (evs : List Event) : Nat :=
  evs.countP fun e => match e with
    | .open _ none => true
    | _ => false

/-- The number of `Close` calls on a writer. -/
def closes (n : Nat) (evs : List Event) : Nat :=
  evs.countP fun e => match e with
    | .close m _ => m == n
    | _ => false

/-- The writers opened by a sequence of calls, when `n` calls were made before it. -/
def writersOf (n : Nat) : List Event → List Nat
  | [] => []
  | .open _ none :: evs => (n + 1) :: writersOf (n + 1) evs
  | _ :: evs => writersOf (n + 1) evs

end Gopoet
