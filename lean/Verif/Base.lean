/-!
# Basic vocabulary of the model

Go strings, panics, maps and decimal numbers. Nothing here is specific to gopoet.
-/

namespace Gopoet

/-- A Go `string`: an arbitrary sequence of bytes (not necessarily valid UTF-8). -/
abbrev GoString := List UInt8

/-- `b! "text"` is the list of the UTF-8 bytes of a string literal, written out as a list of
numerals at elaboration time (so that it reduces in the kernel). -/
syntax "b!" str : term

macro_rules
  | `(b! $s:str) => do
    let elems := s.getString.toUTF8.toList.map fun b =>
      (Lean.Syntax.mkNumLit (toString b.toNat) : Lean.TSyntax `term)
    let arr := elems.toArray
    `(([$arr,*] : List UInt8))

/-- The result of running Go code: it returns a value, panics, or does not return. The last
case only exists for the one unbounded loop of the code base (see `Imports.aliasLoop`). -/
inductive Outcome (α : Type u) where
  | ok (a : α)
  | panic
  | hang
  deriving Repr, DecidableEq

namespace Outcome

/-- Sequencing: a panic (or a loop that does not end) skips what follows. -/
def bind {α β} (x : Outcome α) (f : α → Outcome β) : Outcome β :=
  match x with
  | ok a => f a
  | panic => panic
  | hang => hang

instance : Monad Outcome where
  pure := ok
  bind := bind

@[simp] theorem bind_ok {α β} (a : α) (f : α → Outcome β) : (Outcome.ok a >>= f) = f a := rfl
@[simp] theorem bind_panic {α β} (f : α → Outcome β) : (Outcome.panic >>= f) = .panic := rfl
@[simp] theorem bind_hang {α β} (f : α → Outcome β) : (Outcome.hang >>= f) = .hang := rfl
@[simp] theorem pure_eq {α} (a : α) : (pure a : Outcome α) = .ok a := rfl

end Outcome

/-- A Go `map[K]V`: an association list with at most one entry per key (see `GoMap.set`).
The order of the list carries no meaning: code that ranges over a map is modelled with an
arbitrary permutation of the list. -/
abbrev GoMap (K V : Type) := List (K × V)

namespace GoMap
variable {K V : Type} [DecidableEq K]

/-- `v, ok := m[k]` -/
def get (m : GoMap K V) (k : K) : Option V :=
  match m with
  | [] => none
  | (k', v) :: m => if k' = k then some v else get m k

/-- `m[k] = v` -/
def set (m : GoMap K V) (k : K) (v : V) : GoMap K V :=
  (k, v) :: m.filter (fun e => decide (e.1 ≠ k))

def keys (m : GoMap K V) : List K := m.map (·.1)

end GoMap

/-- Worker of `decDigits`; the first argument bounds the recursion depth. -/
def decDigitsAux : Nat → Nat → GoString
  | 0, _ => []
  | f + 1, n =>
    if n < 10 then [UInt8.ofNat (48 + n)]
    else decDigitsAux f (n / 10) ++ [UInt8.ofNat (48 + n % 10)]

/-- Decimal digits of a natural number, most significant first (`strconv`/`fmt` for
non-negative integers). -/
def decDigits (n : Nat) : GoString := decDigitsAux (n + 1) n

/-- Decimal rendering of an integer, as `fmt.Fprint` / `%d` does. -/
def decInt : Int → GoString
  | .ofNat n => decDigits n
  | .negSucc n => 45 :: decDigits (n + 1)

end Gopoet
