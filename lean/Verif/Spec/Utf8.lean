import Verif.Base
/-!
# UTF-8 (RFC 3629)

Unicode scalar values and their encoding; used by the specification of string literals and by the
models of the standard library functions.
-/

namespace Gopoet

/-- A Unicode scalar value: a code point that is not a surrogate. -/
def isScalar (r : Nat) : Bool := r < 0xD800 || (0xE000 ≤ r && r ≤ 0x10FFFF)

/-- The UTF-8 encoding of a scalar value. -/
def encodeScalar (r : Nat) : GoString :=
  if r < 0x80 then [UInt8.ofNat r]
  else if r < 0x800 then [UInt8.ofNat (0xC0 + r / 64), UInt8.ofNat (0x80 + r % 64)]
  else if r < 0x10000 then
    [UInt8.ofNat (0xE0 + r / 4096), UInt8.ofNat (0x80 + r / 64 % 64), UInt8.ofNat (0x80 + r % 64)]
  else
    [UInt8.ofNat (0xF0 + r / 262144), UInt8.ofNat (0x80 + r / 4096 % 64),
      UInt8.ofNat (0x80 + r / 64 % 64), UInt8.ofNat (0x80 + r % 64)]

/-- A byte string is valid UTF-8 if it is the encoding of a sequence of scalar values. -/
def ValidUtf8 (s : GoString) : Prop := ∃ rs : List Nat, (∀ r ∈ rs, isScalar r = true) ∧
  s = rs.flatMap encodeScalar

end Gopoet
