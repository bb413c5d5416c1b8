import Verif.Spec.Utf8
/-!
# Model of the functions of `unicode/utf8` that gopoet and strconv use

Standard library code; part of the trusted base (transcribed from its documentation).
-/

namespace Gopoet

/-- `utf8.RuneError`, U+FFFD. -/
def runeError : Nat := 0xFFFD

/-- A continuation byte. -/
def isCont (b : UInt8) : Bool := 0x80 ≤ b.toNat && b.toNat ≤ 0xBF

/-- `utf8.DecodeRuneInString` (names.go:16,34): the first rune and its width in bytes;
`(RuneError, 0)` for the empty string and `(RuneError, 1)` for an invalid encoding. -/
def decodeRune : GoString → Nat × Nat
  | [] => (runeError, 0)
  | b0 :: rest =>
    let a := b0.toNat
    if a < 0x80 then (a, 1)
    else if a < 0xC2 then (runeError, 1)
    else if a < 0xE0 then
      match rest with
      | b1 :: _ =>
        if isCont b1 then ((a - 0xC0) * 64 + (b1.toNat - 0x80), 2) else (runeError, 1)
      | _ => (runeError, 1)
    else if a < 0xF0 then
      match rest with
      | b1 :: b2 :: _ =>
        if isCont b1 && isCont b2 && (a != 0xE0 || 0xA0 ≤ b1.toNat) &&
            (a != 0xED || b1.toNat ≤ 0x9F) then
          ((a - 0xE0) * 4096 + (b1.toNat - 0x80) * 64 + (b2.toNat - 0x80), 3)
        else (runeError, 1)
      | _ => (runeError, 1)
    else if a < 0xF5 then
      match rest with
      | b1 :: b2 :: b3 :: _ =>
        if isCont b1 && isCont b2 && isCont b3 && (a != 0xF0 || 0x90 ≤ b1.toNat) &&
            (a != 0xF4 || b1.toNat ≤ 0x8F) then
          ((a - 0xF0) * 262144 + (b1.toNat - 0x80) * 4096 + (b2.toNat - 0x80) * 64 +
            (b3.toNat - 0x80), 4)
        else (runeError, 1)
      | _ => (runeError, 1)
    else (runeError, 1)

/-- `utf8.AppendRune` / `bytes.Buffer.WriteRune` / `string(rune)`: invalid runes become
U+FFFD. -/
def encodeRune (r : Nat) : GoString := encodeScalar (if isScalar r then r else runeError)

end Gopoet
