import Verif.Model.Utf8
/-!
# Model of strconv.Quote and strconv.CanBackquote

Standard library code (trusted base), called from types.go:880-886, model.go and imports.go:371-376.
`tbl` is the Unicode table behind `strconv.IsPrint` for runes above 0xFF; theorems hold for every
table that does not contain the byte order mark U+FEFF.
-/

namespace Gopoet

/-- `strconv.IsPrint`: exact for runes up to 0xFF, a table above. -/
def isPrint (tbl : Nat → Bool) (r : Nat) : Bool :=
  if r ≤ 0xFF then (0x20 ≤ r && r < 0x7F) || (0xA1 ≤ r && r != 0xAD) else tbl r

/-- `lowerhex[n]`. -/
def lowerHex (n : Nat) : UInt8 := if n < 10 then UInt8.ofNat (48 + n) else UInt8.ofNat (87 + n)

/-- `strconv.appendEscapedRune` with quote `"` and neither ASCIIonly nor graphicOnly. -/
def escapeRune (tbl : Nat → Bool) (r : Nat) : GoString :=
  if r = 34 ∨ r = 92 then [92, UInt8.ofNat r]
  else if isPrint tbl r then encodeRune r
  else if r = 7 then [92, 97]
  else if r = 8 then [92, 98]
  else if r = 12 then [92, 102]
  else if r = 10 then [92, 110]
  else if r = 13 then [92, 114]
  else if r = 9 then [92, 116]
  else if r = 11 then [92, 118]
  else if r < 32 ∨ r = 0x7F then [92, 120, lowerHex (r / 16), lowerHex (r % 16)]
  else
    let r := if isScalar r then r else 0xFFFD
    if r < 0x10000 then
      [92, 117, lowerHex (r / 4096 % 16), lowerHex (r / 256 % 16), lowerHex (r / 16 % 16),
        lowerHex (r % 16)]
    else
      [92, 85, lowerHex (r / 268435456 % 16), lowerHex (r / 16777216 % 16),
        lowerHex (r / 1048576 % 16), lowerHex (r / 65536 % 16), lowerHex (r / 4096 % 16),
        lowerHex (r / 256 % 16), lowerHex (r / 16 % 16), lowerHex (r % 16)]

/-- The loop of `strconv.appendQuotedWith`; `fuel` bounds the number of runes. -/
def quoteLoop (tbl : Nat → Bool) : Nat → GoString → GoString
  | 0, _ => []
  | _, [] => []
  | fuel + 1, b :: s =>
    let (r, width) := decodeRune (b :: s)
    if width = 1 ∧ r = runeError then
      [92, 120, lowerHex (b.toNat / 16), lowerHex (b.toNat % 16)] ++ quoteLoop tbl fuel s
    else escapeRune tbl r ++ quoteLoop tbl fuel ((b :: s).drop width)

/-- `strconv.Quote`. -/
def quote (tbl : Nat → Bool) (s : GoString) : GoString :=
  34 :: quoteLoop tbl s.length s ++ [34]

/-- The loop of `strconv.CanBackquote`. -/
def canBackquoteLoop : Nat → GoString → Bool
  | 0, _ => true
  | _, [] => true
  | fuel + 1, b :: s =>
    let (r, width) := decodeRune (b :: s)
    if width > 1 then
      if r = 0xFEFF then false else canBackquoteLoop fuel ((b :: s).drop width)
    else if r = runeError then false
    else if (r < 32 ∧ r ≠ 9) ∨ r = 96 ∨ r = 0x7F then false
    else canBackquoteLoop fuel s

/-- `strconv.CanBackquote`. -/
def canBackquote (s : GoString) : Bool := canBackquoteLoop s.length s

example : quote (fun _ => true) [97, 34, 10, 0, 255, 195, 169] = b! "\"a\\\"\\n\\x00\\xffé\"" := by decide
example : quote (fun _ => false) [226, 128, 168] = b! "\"\\u2028\"" := by decide
example : canBackquote (b! "json:\"é\"") = true ∧ canBackquote (b! "a`b") = false := by decide

end Gopoet
