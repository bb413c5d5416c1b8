import Verif.Spec.Utf8
/-!
# Go string literals, from the language specification ("String literals", "Rune literals")

`stringLit s` reads one string literal at the start of `s` and returns its value and what follows.
Escapes: `\a \b \f \n \r \t \v \\ \"`, three octal digits, `\xHH`, `\uHHHH`, `\UHHHHHHHH`.
-/

namespace Gopoet

/-- Value of a hexadecimal digit. -/
def hexVal (b : UInt8) : Option Nat :=
  if 48 ≤ b.toNat ∧ b.toNat ≤ 57 then some (b.toNat - 48)
  else if 97 ≤ b.toNat ∧ b.toNat ≤ 102 then some (b.toNat - 87)
  else if 65 ≤ b.toNat ∧ b.toNat ≤ 70 then some (b.toNat - 55)
  else none

/-- Value of a sequence of hexadecimal digits. -/
def hexNum : List UInt8 → Option Nat
  | ds => ds.foldl (fun acc d => do let a ← acc; let v ← hexVal d; pure (a * 16 + v)) (some 0)

/-- Value of an octal digit. -/
def octVal (b : UInt8) : Option Nat :=
  if 48 ≤ b.toNat ∧ b.toNat ≤ 55 then some (b.toNat - 48) else none

/-- The body of an interpreted string literal, after the opening quote. -/
def interpretedBody : GoString → Option (GoString × GoString)
  | 34 :: rest => some ([], rest)
  | 92 :: 120 :: a :: b :: rest => do
    let n ← hexNum [a, b]
    let (v, r) ← interpretedBody rest
    pure (UInt8.ofNat n :: v, r)
  | 92 :: 117 :: a :: b :: c :: d :: rest => do
    let n ← hexNum [a, b, c, d]
    if isScalar n then do
      let (v, r) ← interpretedBody rest
      pure (encodeScalar n ++ v, r)
    else none
  | 92 :: 85 :: a :: b :: c :: d :: e :: f :: g :: h :: rest => do
    let n ← hexNum [a, b, c, d, e, f, g, h]
    if isScalar n then do
      let (v, r) ← interpretedBody rest
      pure (encodeScalar n ++ v, r)
    else none
  | 92 :: 97 :: rest => do let (v, r) ← interpretedBody rest; pure (7 :: v, r)
  | 92 :: 98 :: rest => do let (v, r) ← interpretedBody rest; pure (8 :: v, r)
  | 92 :: 102 :: rest => do let (v, r) ← interpretedBody rest; pure (12 :: v, r)
  | 92 :: 110 :: rest => do let (v, r) ← interpretedBody rest; pure (10 :: v, r)
  | 92 :: 114 :: rest => do let (v, r) ← interpretedBody rest; pure (13 :: v, r)
  | 92 :: 116 :: rest => do let (v, r) ← interpretedBody rest; pure (9 :: v, r)
  | 92 :: 118 :: rest => do let (v, r) ← interpretedBody rest; pure (11 :: v, r)
  | 92 :: 92 :: rest => do let (v, r) ← interpretedBody rest; pure (92 :: v, r)
  | 92 :: 34 :: rest => do let (v, r) ← interpretedBody rest; pure (34 :: v, r)
  | 92 :: a :: b :: c :: rest => do
    let x ← octVal a
    let y ← octVal b
    let z ← octVal c
    let n := x * 64 + y * 8 + z
    if n < 256 then do
      let (v, r) ← interpretedBody rest
      pure (UInt8.ofNat n :: v, r)
    else none
  | 92 :: _ => none
  | 10 :: _ => none
  | c :: rest => do let (v, r) ← interpretedBody rest; pure (c :: v, r)
  | [] => none

/-- The body of a raw string literal, after the opening back quote: everything up to the next back
quote, without carriage returns. -/
def rawBody : GoString → Option (GoString × GoString)
  | 96 :: rest => some ([], rest)
  | 13 :: rest => rawBody rest
  | c :: rest => do let (v, r) ← rawBody rest; pure (c :: v, r)
  | [] => none

/-- A string literal at the start of the input: its value and the rest of the input. -/
def stringLit : GoString → Option (GoString × GoString)
  | 34 :: rest => interpretedBody rest
  | 96 :: rest => rawBody rest
  | _ => none

example : stringLit (b! "\"a\\n\\x41\\u00e9\\101\\\"\" rest") = some ([97, 10, 65, 195, 169, 65, 34], b! " rest") := by
  decide
example : stringLit (b! "`a\\n` rest") = some (b! "a\\n", b! " rest") := by decide

/-- What the language allows as source text inside a file (apart from its start): valid UTF-8
without the characters NUL and byte order mark. -/
def SourceText (s : GoString) : Prop :=
  ∃ rs : List Nat, (∀ r ∈ rs, isScalar r = true ∧ r ≠ 0 ∧ r ≠ 0xFEFF) ∧ s = rs.flatMap encodeScalar

end Gopoet
