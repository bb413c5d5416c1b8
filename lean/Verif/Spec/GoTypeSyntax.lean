import Verif.Spec.Lexer
/-!
# Go's grammar of types

Abstract syntax and a parser, written from the language specification ("Types"), for the language
version of the code base (no type parameters). `N` is what stands for a type name: in the syntax
it is an optional package qualifier with an identifier.
-/

namespace Gopoet

/-- Direction of a channel type. -/
inductive SynDir where
  | both | send | recv
  deriving DecidableEq, Repr

mutual
/-- Go types. -/
inductive GoType (N : Type) where
  | name (n : N)
  | ptr (e : GoType N)
  | slice (e : GoType N)
  | array (len : Nat) (e : GoType N)
  | map (key elem : GoType N)
  | chan (dir : SynDir) (e : GoType N)
  | func (sig : GoSig N)
  | struct (fields : List (GoField N))
  | iface (elems : List (GoElem N))
/-- Signatures; if `variadic`, the type of the last parameter is the element type of `...T`. -/
inductive GoSig (N : Type) where
  | mk (params : List (GoParam N)) (variadic : Bool) (results : List (GoParam N))
/-- Parameters and results. -/
inductive GoParam (N : Type) where
  | mk (name : Option GoString) (type : GoType N)
/-- Struct fields; without a name the field is embedded. -/
inductive GoField (N : Type) where
  | mk (name : Option GoString) (type : GoType N) (tag : Option GoString)
/-- Elements of an interface. -/
inductive GoElem (N : Type) where
  | embed (n : N)
  | method (name : GoString) (sig : GoSig N)
end

/-- A type name as written: package qualifier and identifier. -/
abbrev SynName := Option GoString × GoString
/-- Types as written. -/
abbrev SynType := GoType SynName
/-- Signatures as written. -/
abbrev SynSig := GoSig SynName

/-- One entry of a parameter list before the names are distributed: `T`, `...T`, `x T`, `x ...T`. -/
structure ParamEntry where
  name : Option GoString
  variadic : Bool
  type : SynType

/-- `x, y T` declares both: in a list with names an entry that is just an identifier is a name and
takes the type of the following one. -/
def groupNames : List ParamEntry → Option (List ParamEntry)
  | [] => some []
  | e :: l => do
    let l' ← groupNames l
    match e with
    | ⟨some _, _, _⟩ => some (e :: l')
    | ⟨none, false, .name (none, a)⟩ =>
      match l' with
      | n :: _ => some (⟨some a, n.variadic, n.type⟩ :: l')
      | [] => none
    | _ => none

/-- Only the final parameter may be variadic: the parameters, and whether the last one is. -/
def checkVariadic : List ParamEntry → Option (List (GoParam SynName) × Bool)
  | [] => some ([], false)
  | [e] => some ([.mk e.name e.type], e.variadic)
  | e :: l => do
    let (ps, v) ← checkVariadic l
    if e.variadic then none else some (.mk e.name e.type :: ps, v)

/-- Turn the entries of a parameter list into parameters. -/
def paramList (es : List ParamEntry) : Option (List (GoParam SynName) × Bool) :=
  if es.any (fun e => e.name.isSome) then do checkVariadic (← groupNames es)
  else checkVariadic es

/-- Whether a type can start here (after a parameter list: is there a result). -/
def startsType : List Tok → Bool
  | .ident _ :: _ | .star :: _ | .lbrack :: _ | .kw .kMap :: _ | .kw .kChan :: _ | .arrow :: _
  | .kw .kFunc :: _ | .kw .kStruct :: _ | .kw .kInterface :: _ | .lparen :: _ => true
  | _ => false

/-- An optional tag. -/
def optTag : List Tok → Option GoString × List Tok
  | .str v :: r => (some v, r)
  | r => (none, r)

/-- A list of identifiers separated by commas. -/
def identList : List Tok → Option (List GoString × List Tok)
  | .ident a :: .comma :: r => do let (l, r) ← identList r; pure (a :: l, r)
  | .ident a :: r => some ([a], r)
  | _ => none

/-- A type name, possibly qualified. -/
def typeName : List Tok → Option (SynName × List Tok)
  | .ident a :: .dot :: .ident b :: r => some ((some a, b), r)
  | .ident a :: r => some ((none, a), r)
  | _ => none

mutual
/-- A type at the start of the tokens, and the rest. The first argument bounds the recursion. -/
def parseType : Nat → List Tok → Option (SynType × List Tok)
  | 0, _ => none
  | f + 1, toks =>
    match toks with
    | .ident _ :: _ => do let (n, r) ← typeName toks; some (.name n, r)
    | .star :: r => do let (t, r) ← parseType f r; some (.ptr t, r)
    | .lbrack :: .rbrack :: r => do let (t, r) ← parseType f r; some (.slice t, r)
    | .lbrack :: .int n :: .rbrack :: r => do let (t, r) ← parseType f r; some (.array n t, r)
    | .kw .kMap :: .lbrack :: r => do
      let (k, r) ← parseType f r
      match r with
      | .rbrack :: r => do let (t, r) ← parseType f r; some (.map k t, r)
      | _ => none
    -- the arrow associates with the leftmost `chan` possible
    | .kw .kChan :: .arrow :: r => do let (t, r) ← parseType f r; some (.chan .send t, r)
    | .kw .kChan :: r => do let (t, r) ← parseType f r; some (.chan .both t, r)
    | .arrow :: .kw .kChan :: r => do let (t, r) ← parseType f r; some (.chan .recv t, r)
    | .kw .kFunc :: r => do let (s, r) ← parseSig f r; some (.func s, r)
    | .kw .kStruct :: .lbrace :: r => do let (fs, r) ← parseFields f r; some (.struct fs, r)
    | .kw .kInterface :: .lbrace :: r => do let (es, r) ← parseElems f r; some (.iface es, r)
    | .lparen :: r => do
      let (t, r) ← parseType f r
      match r with
      | .rparen :: r => some (t, r)
      | _ => none
    | _ => none
/-- Parameters and optional result. -/
def parseSig : Nat → List Tok → Option (SynSig × List Tok)
  | f + 1, .lparen :: r => do
    let (es, r) ← parseEntries f r
    let (ps, v) ← paramList es
    let (rs, r) ← parseResult f r
    some (.mk ps v rs, r)
  | _, _ => none
/-- The optional result: a parameter list or a type. -/
def parseResult : Nat → List Tok → Option (List (GoParam SynName) × List Tok)
  | f + 1, .lparen :: r => do
    let (es, r) ← parseEntries f r
    let (ps, v) ← paramList es
    if v then none else some (ps, r)
  | f + 1, toks =>
    if startsType toks then do let (t, r) ← parseType f toks; some ([.mk none t], r)
    else some ([], toks)
  | 0, _ => none
/-- The entries of a parameter list up to and including the closing parenthesis; a trailing comma is
allowed. -/
def parseEntries : Nat → List Tok → Option (List ParamEntry × List Tok)
  | _ + 1, .rparen :: r => some ([], r)
  | f + 1, toks => do
    let (e, r) ← parseEntry f toks
    match r with
    | .comma :: r => do let (es, r) ← parseEntries f r; some (e :: es, r)
    | .rparen :: r => some ([e], r)
    | _ => none
  | 0, _ => none
/-- One entry of a parameter list. -/
def parseEntry : Nat → List Tok → Option (ParamEntry × List Tok)
  | 0, _ => none
  | f + 1, toks =>
    match toks with
    | .ident a :: r =>
      match r with
      | .comma :: _ | .rparen :: _ | .dot :: _ => do
        let (t, r) ← parseType f toks
        some (⟨none, false, t⟩, r)
      | .ellipsis :: r => do let (t, r) ← parseType f r; some (⟨some a, true, t⟩, r)
      | r => do let (t, r) ← parseType f r; some (⟨some a, false, t⟩, r)
    | .ellipsis :: r => do let (t, r) ← parseType f r; some (⟨none, true, t⟩, r)
    | toks => do let (t, r) ← parseType f toks; some (⟨none, false, t⟩, r)
/-- The fields of a struct up to and including the closing brace; the semicolon before it may be
omitted. -/
def parseFields : Nat → List Tok → Option (List (GoField SynName) × List Tok)
  | _ + 1, .rbrace :: r => some ([], r)
  | f + 1, toks => do
    let (fs, r) ← parseField f toks
    match r with
    | .semi :: r => do let (fs', r) ← parseFields f r; some (fs ++ fs', r)
    | .rbrace :: r => some (fs, r)
    | _ => none
  | 0, _ => none
/-- One field declaration: `*T`, `T`, or names with a type; then an optional tag. -/
def parseField : Nat → List Tok → Option (List (GoField SynName) × List Tok)
  | 0, _ => none
  | f + 1, toks =>
    match toks with
    | .star :: r => do
      let (n, r) ← typeName r
      let (tag, r) := optTag r
      some ([.mk none (.ptr (.name n)) tag], r)
    | .ident _ :: .dot :: _ | .ident _ :: .semi :: _ | .ident _ :: .rbrace :: _
    | .ident _ :: .str _ :: _ => do
      let (n, r) ← typeName toks
      let (tag, r) := optTag r
      some ([.mk none (.name n) tag], r)
    | toks => do
      let (names, r) ← identList toks
      let (t, r) ← parseType f r
      let (tag, r) := optTag r
      some (names.map (fun n => .mk (some n) t tag), r)
/-- The elements of an interface up to and including the closing brace. -/
def parseElems : Nat → List Tok → Option (List (GoElem SynName) × List Tok)
  | _ + 1, .rbrace :: r => some ([], r)
  | f + 1, toks => do
    let (e, r) ← parseElem f toks
    match r with
    | .semi :: r => do let (es, r) ← parseElems f r; some (e :: es, r)
    | .rbrace :: r => some ([e], r)
    | _ => none
  | 0, _ => none
/-- A method or an embedded interface. -/
def parseElem : Nat → List Tok → Option (GoElem SynName × List Tok)
  | 0, _ => none
  | f + 1, toks =>
    match toks with
    | .ident a :: .lparen :: r => do
      let (s, r) ← parseSig f (.lparen :: r)
      some (.method a s, r)
    | toks => do let (n, r) ← typeName toks; some (.embed n, r)
end

/-- Read a whole text as a Go type. -/
def parseGoType (s : GoString) : Option SynType := do
  let toks ← lex s
  let (t, r) ← parseType (4 * toks.length + 4) toks
  if r = [] then some t else none

/-- Read a whole text as parameters and results of a function. -/
def parseGoSig (s : GoString) : Option SynSig := do
  let toks ← lex s
  let (t, r) ← parseSig (4 * toks.length + 4) toks
  if r = [] then some t else none

example : parseGoType (b! "chan<- (chan int)") = parseGoType (b! "chan <-chan int") := by rfl
example : parseGoType (b! "chan (<-chan int)") =
    some (.chan .both (.chan .recv (.name (none, b! "int")))) := by rfl
example : parseGoType (b! "func(a, b int, c ...x.Y) (int, error)") =
    some (.func (.mk
      [.mk (some (b! "a")) (.name (none, b! "int")), .mk (some (b! "b")) (.name (none, b! "int")),
        .mk (some (b! "c")) (.name (some (b! "x"), b! "Y"))] true
      [.mk none (.name (none, b! "int")), .mk none (.name (none, b! "error"))])) := by rfl
example : parseGoType (b! "struct{ x, y int; *a.B `t`; C }") =
    some (.struct [.mk (some (b! "x")) (.name (none, b! "int")) none,
      .mk (some (b! "y")) (.name (none, b! "int")) none,
      .mk none (.ptr (.name (some (b! "a"), b! "B"))) (some (b! "t")),
      .mk none (.name (none, b! "C")) none]) := by rfl
example : parseGoType (b! "interface{ io.Reader; Close() error }") =
    some (.iface [.embed (some (b! "io"), b! "Reader"),
      .method (b! "Close") (.mk [] false [.mk none (.name (none, b! "error"))])]) := by rfl
example : (parseGoType (b! "func(a int, string)")).isNone := by rfl
example : (parseGoType (b! "func(a, b ...int)")).isNone := by rfl
example : (parseGoType (b! "func(...int, b)")).isNone := by rfl

end Gopoet
