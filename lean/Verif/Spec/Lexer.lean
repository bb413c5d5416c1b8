import Verif.Spec.StringLit
/-!
# Go's lexical grammar

A lexer written from the language specification ("Lexical elements"). Simplifications, all of
which only concern input the theorems never speak about: bytes from 0x80 up count as letters (the
language allows the letters among them), number literals are decimal integers only, rune literals
are not recognised, operators other than those listed become single byte `op` tokens.
-/

namespace Gopoet

/-- The keywords of Go. -/
inductive Keyword where
  | kBreak | kCase | kChan | kConst | kContinue | kDefault | kDefer | kElse | kFallthrough | kFor
  | kFunc | kGo | kGoto | kIf | kImport | kInterface | kMap | kPackage | kRange | kReturn | kSelect
  | kStruct | kSwitch | kType | kVar
  deriving DecidableEq, Repr

/-- The keywords with their spelling. -/
def keywords : List (GoString × Keyword) :=
  [(b! "break", .kBreak), (b! "case", .kCase), (b! "chan", .kChan), (b! "const", .kConst),
   (b! "continue", .kContinue), (b! "default", .kDefault), (b! "defer", .kDefer),
   (b! "else", .kElse), (b! "fallthrough", .kFallthrough), (b! "for", .kFor), (b! "func", .kFunc),
   (b! "go", .kGo), (b! "goto", .kGoto), (b! "if", .kIf), (b! "import", .kImport),
   (b! "interface", .kInterface), (b! "map", .kMap), (b! "package", .kPackage),
   (b! "range", .kRange), (b! "return", .kReturn), (b! "select", .kSelect),
   (b! "struct", .kStruct), (b! "switch", .kSwitch), (b! "type", .kType), (b! "var", .kVar)]

/-- The keyword spelled `w`, if any. -/
def keyword? (w : GoString) : Option Keyword := (keywords.find? (fun e => e.1 == w)).map (·.2)

/-- Tokens. `nl` is a line end; see `insertSemis`. -/
inductive Tok where
  | ident (s : GoString) | kw (k : Keyword) | int (n : Nat) | str (value : GoString)
  | star | lbrack | rbrack | lparen | rparen | lbrace | rbrace | comma | semi | dot | assign
  | ellipsis | arrow | op (b : UInt8) | nl
  deriving DecidableEq, Repr

/-- Letters: ASCII letters, underscore, and the bytes of characters beyond ASCII. -/
def isLetterByte (b : UInt8) : Bool :=
  (65 ≤ b.toNat && b.toNat ≤ 90) || (97 ≤ b.toNat && b.toNat ≤ 122) || b == 95 || 128 ≤ b.toNat

/-- Decimal digits. -/
def isDigitByte (b : UInt8) : Bool := 48 ≤ b.toNat && b.toNat ≤ 57

/-- Letters and digits. -/
def isWordByte (b : UInt8) : Bool := isLetterByte b || isDigitByte b

/-- An identifier: a letter followed by letters and digits, and not a keyword. -/
def isIdent (s : GoString) : Bool :=
  (match s with | [] => false | b :: _ => isLetterByte b) && s.all isWordByte && (keyword? s).isNone

/-- A word is a keyword or an identifier. -/
def wordTok (w : GoString) : Tok :=
  match keyword? w with
  | some k => .kw k
  | none => .ident w

/-- A decimal integer literal: digits without a leading zero. -/
def decNum (w : GoString) : Option Nat :=
  if w.all isDigitByte && (w == [48] || w.head? != some 48) then
    some (w.foldl (fun n b => n * 10 + (b.toNat - 48)) 0)
  else none

/-- Single byte punctuation. -/
def punctTok (b : UInt8) : Tok :=
  if b = 42 then .star else if b = 91 then .lbrack else if b = 93 then .rbrack
  else if b = 40 then .lparen else if b = 41 then .rparen else if b = 123 then .lbrace
  else if b = 125 then .rbrace else if b = 44 then .comma else if b = 59 then .semi
  else if b = 46 then .dot else if b = 61 then .assign else .op b

/-- The end of a general comment; whether it contains a line end, and what follows. -/
def blockComment : GoString → Option (Bool × GoString)
  | 42 :: 47 :: r => some (false, r)
  | 10 :: r => do let (_, r) ← blockComment r; pure (true, r)
  | _ :: r => blockComment r
  | [] => none

/-- Punctuation and comments: the tokens of one such item (none for a comment) and what follows. -/
def punctStep : UInt8 → GoString → Option (List Tok × GoString)
  | 60, 45 :: r => some ([.arrow], r)
  | 46, 46 :: 46 :: r => some ([.ellipsis], r)
  | 47, 47 :: r => some ([], r.dropWhile (fun c => c != 10))
  | 47, 42 :: r => (blockComment r).map (fun x => (if x.1 then [.nl] else [], x.2))
  | b, s => some ([punctTok b], s)

/-- The tokens of a source text; `none` if it is lexically wrong. The first argument bounds the
number of steps. -/
def lexFuel : Nat → GoString → Option (List Tok)
  | _, [] => some []
  | 0, _ :: _ => none
  | f + 1, b :: s =>
    if b = 32 ∨ b = 9 ∨ b = 13 then lexFuel f s
    else if b = 10 then (lexFuel f s).map (.nl :: ·)
    else if isLetterByte b then
      (lexFuel f (s.dropWhile isWordByte)).map (wordTok (b :: s.takeWhile isWordByte) :: ·)
    else if isDigitByte b then
      match decNum (b :: s.takeWhile isWordByte) with
      | some n => (lexFuel f (s.dropWhile isWordByte)).map (.int n :: ·)
      | none => none
    else if b = 34 ∨ b = 96 then
      match stringLit (b :: s) with
      | some (v, r) => (lexFuel f r).map (.str v :: ·)
      | none => none
    else
      match punctStep b s with
      | some (ts, r) => (lexFuel f r).map (ts ++ ·)
      | none => none

/-- The tokens of a source text. Every step consumes a byte. -/
def lex (s : GoString) : Option (List Tok) := lexFuel s.length s

example : lex (b! "map[string]*foo.Bar // c\nchan<- struct{a int `x`}") =
    some [.kw .kMap, .lbrack, .ident (b! "string"), .rbrack, .star, .ident (b! "foo"), .dot,
      .ident (b! "Bar"), .nl, .kw .kChan, .arrow, .kw .kStruct, .lbrace, .ident (b! "a"),
      .ident (b! "int"), .str (b! "x"), .rbrace] := by decide
example : lex (b! "func(xs ...[10]int)") =
    some [.kw .kFunc, .lparen, .ident (b! "xs"), .ellipsis, .lbrack, .int 10, .rbrack,
      .ident (b! "int"), .rparen] := by decide

end Gopoet
