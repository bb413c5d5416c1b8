import Verif.Model.Utf8
import Verif.Base
/-!
# Model of names.go

The Unicode tables behind `unicode.IsUpper`, `unicode.ToUpper` and `unicode.ToLower` are a
parameter; theorems state which facts about them they use.
-/

namespace Gopoet

/-- `unicode.IsUpper`, `unicode.ToUpper`, `unicode.ToLower`. -/
structure CaseTable where
  isUpper : Nat → Bool
  toUpper : Nat → Nat
  toLower : Nat → Nat

/-- `Unexport` — names.go:12-22. -/
def unexport (u : CaseTable) (s : GoString) : Outcome GoString :=
  if s = [] then .ok s
  else if (decodeRune s).1 = runeError then .panic
  else .ok (encodeRune (u.toLower (decodeRune s).1) ++ s.drop (decodeRune s).2)

/-- `Export` — names.go:30-51. -/
def export' (u : CaseTable) (s : GoString) : Outcome GoString :=
  if s = [] then .ok s
  else if (decodeRune s).1 = runeError then .panic
  else if u.isUpper (decodeRune s).1 then .ok s
  else if u.toUpper (decodeRune s).1 = (decodeRune s).1 then
    if (decodeRune s).1 = 95 then .ok (b! "X" ++ s.drop (decodeRune s).2)
    else .ok (b! "X" ++ s)
  else .ok (encodeRune (u.toUpper (decodeRune s).1) ++ s.drop (decodeRune s).2)

end Gopoet
