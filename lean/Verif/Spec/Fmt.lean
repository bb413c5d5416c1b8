import Verif.Model.Fmt
import Verif.Spec.Lexer
import Verif.Spec.StringLit
/-!
# Specification vocabulary for formats: a format as a sequence of pieces
-/

namespace Gopoet

/-- A piece of a call `Printf(format, args...)`. -/
inductive FormatPiece where
  /-- text without `%` -/
  | text (s : GoString)
  /-- `%%` -/
  | percent
  /-- `%s` or `%v` with an argument that is a string or has a `String` method -/
  | str (v : Bool) (s : GoString)
  /-- `%q` with such an argument -/
  | quoted (s : GoString)
  /-- `%d` or `%v` with a number -/
  | num (v : Bool) (n : Int)
  /-- one of these verbs without an argument -/
  | missing (verb : UInt8)

namespace FormatPiece

/-- The part of the format. -/
def format : FormatPiece → GoString
  | text s => s
  | percent => b! "%%"
  | str v _ => if v then b! "%v" else b! "%s"
  | quoted _ => b! "%q"
  | num v _ => if v then b! "%v" else b! "%d"
  | missing verb => [37, verb]

/-- The arguments it uses. -/
def args : FormatPiece → List Shown
  | str _ s | quoted s => [.str s]
  | num _ n => [.int n]
  | _ => []

/-- The pieces are as described. -/
def Ok : FormatPiece → Prop
  | text s => (37 : UInt8) ∉ s
  | missing verb => verb = 115 ∨ verb = 118 ∨ verb = 100 ∨ verb = 113
  | _ => True

/-- `w` is the decimal form of a number. -/
def DecimalText (w : GoString) (n : Int) : Prop :=
  (0 ≤ n ∧ w ≠ [] ∧ decNum w = some n.toNat) ∨
    (n < 0 ∧ ∃ d, w = 45 :: d ∧ d ≠ [] ∧ decNum d = some (-n).toNat)

/-- The text that a piece gives: text as it is, `%%` a percent sign, `%q` a Go string literal with
that value, and numbers in decimal. -/
inductive Gives : FormatPiece → GoString → Prop
  | text (s) : Gives (text s) s
  | percent : Gives percent (b! "%")
  | str (v s) : Gives (str v s) s
  | quoted {s w} : stringLit w = some (s, []) → Gives (quoted s) w
  | num {v n w} : DecimalText w n → Gives (num v n) w
  | missing (verb) : Gives (missing verb) (b! "%!" ++ [verb] ++ b! "(MISSING)")

/-- A call consists of pieces: first those that use the arguments, then ones that use none. -/
def Describes (ps missing : List FormatPiece) (format : GoString) (shown : List Shown) : Prop :=
  (∀ p ∈ ps ++ missing, p.Ok) ∧ (∀ v, .missing v ∉ ps) ∧ (∀ p ∈ missing, p.args = []) ∧
    format = (ps ++ missing).flatMap FormatPiece.format ∧ shown = ps.flatMap FormatPiece.args

end FormatPiece

/-- Arguments for which `fmt` has no text of a `String` method: values without such a method, and nil
pointers, for which the method panics. -/
def Arg.HasNoText (h : Heap) : Arg → Prop
  | .sig _ | .sigPtr _ | .other _ => True
  | .value p => h.values p = none
  | .typeSpec p => h.types p = none
  | .ifaceMethod p => h.methods p = none
  | .func p => h.funcs p = none
  | .ifaceEmbed p => h.embeds p = none
  | .field p => h.fields p = none
  | _ => False

end Gopoet
