import Mathlib.Data.List.Defs
import Verif.Model.File
import Verif.Spec.TypeSyntax
/-!
# Go's grammar of type declarations

Automatic semicolons and a parser for type declarations, from the language specification
("Semicolons", "Type declarations"), and what a `*TypeSpec` in the heap stands for.
-/

namespace Gopoet

/-! ### Semicolons -/

/-- Tokens after which a line end counts as a semicolon. (The operators `++` and `--`, which the
language also lists, are not recognised by the lexer.) -/
def endsStatement : Tok → Bool
  | .ident _ | .int _ | .str _ | .rparen | .rbrack | .rbrace => true
  | .kw .kBreak | .kw .kContinue | .kw .kFallthrough | .kw .kReturn => true
  | _ => false

/-- Turns line ends into semicolons or nothing; `b` says whether the token before was one after
which a semicolon is due. Also returns whether a semicolon is due at the end. -/
def semiStep (b : Bool) : List Tok → List Tok × Bool
  | [] => ([], b)
  | .nl :: r => ((if b then [.semi] else []) ++ (semiStep false r).1, (semiStep false r).2)
  | t :: r => (t :: (semiStep (endsStatement t) r).1, (semiStep (endsStatement t) r).2)

/-- The tokens of a text with automatic semicolons. -/
def insertSemis (ts : List Tok) : List Tok :=
  (semiStep false ts).1 ++ (if (semiStep false ts).2 then [.semi] else [])

/-! ### Type declarations -/

/-- A declared type. -/
structure DeclaredType where
  name : GoString
  isAlias : Bool
  type : SynType

/-- A declaration of types: `type T ...` or `type ( ... )`. -/
inductive TypeDeclSyn where
  | single (t : DeclaredType)
  | group (ts : List DeclaredType)

/-- `Name Type` or `Name = Type`. -/
def parseTypeSpec (f : Nat) : List Tok → Option (DeclaredType × List Tok)
  | .ident n :: .assign :: r => do let (t, r) ← parseType f r; some (⟨n, true, t⟩, r)
  | .ident n :: r => do let (t, r) ← parseType f r; some (⟨n, false, t⟩, r)
  | _ => none

/-- The types of a group up to and including the closing parenthesis. -/
def parseTypeSpecs : Nat → List Tok → Option (List DeclaredType × List Tok)
  | _ + 1, .rparen :: r => some ([], r)
  | f + 1, toks => do
    let (t, r) ← parseTypeSpec f toks
    match r with
    | .semi :: r => do let (ts, r) ← parseTypeSpecs f r; some (t :: ts, r)
    | .rparen :: r => some ([t], r)
    | _ => none
  | 0, _ => none

/-- A declaration at the start of the tokens. -/
def parseTypeDecl (f : Nat) : List Tok → Option (TypeDeclSyn × List Tok)
  | .kw .kType :: .lparen :: r => do let (ts, r) ← parseTypeSpecs f r; some (.group ts, r)
  | .kw .kType :: r => do let (t, r) ← parseTypeSpec f r; some (.single t, r)
  | _ => none

/-- Reads a text as one type declaration. -/
def parseGoTypeDecl (s : GoString) : Option TypeDeclSyn := do
  let toks ← lex s
  let toks := insertSemis toks
  let (d, r) ← parseTypeDecl (4 * toks.length + 4) toks
  if r = [.semi] then some d else none

example : parseGoTypeDecl (b! "// doc\ntype T  struct {\nA int\nB  struct {\n}\n\n}\n") =
    some (.single ⟨b! "T", false, .struct [.mk (some (b! "A")) (.name (none, b! "int")) none,
      .mk (some (b! "B")) (.struct []) none]⟩) := by rfl
example : parseGoTypeDecl (b! "type (\nT = a.B\n// U\nU  interface {\nM()\nX\n}\n)\n") =
    some (.group [⟨b! "T", true, .name (some (b! "a"), b! "B")⟩,
      ⟨b! "U", false, .iface [.method (b! "M") (.mk [] false []), .embed (none, b! "X")]⟩]) := by rfl
example : parseGoTypeDecl (b! "type T = \nint") = some (.single ⟨b! "T", true, .name (none, b! "int")⟩) := by
  rfl
example : (parseGoTypeDecl (b! "type T\nint")).isNone := by rfl
/- A tag on the next line is no tag. -/
example : (parseGoTypeDecl (b! "type T struct {\nB  struct {\n}\n `x`\n}\n")).isNone := by rfl

/-! ### What a spec declares -/

/-- Types that `writeUnderlying` spreads over several lines. -/
def TypeName.isBlock : TypeName → Bool
  | .struct _ | .interface _ _ => true
  | _ => false

mutual
/-- Types that can be written as the body of a spec: fields with a struct or interface type have no
tag, and, inside of a line, types are `unproblematic`. -/
def TypeName.multiline : TypeName → Bool
  | .struct fs => multilineFields fs
  | .interface ms _ => unproblematicMethods ms
  | t => t.unproblematic
/-- see `TypeName.multiline` -/
def multilineFields : List FieldType → Bool
  | [] => true
  | ⟨_, t, tag⟩ :: l => (!t.isBlock || tag == []) && t.multiline && multilineFields l
end

/-- A type with only identifiers as names that can be written on one line. -/
def TypeName.onLine (t : TypeName) : Prop :=
  t.valid = true ∧ t.wellNamed = true ∧ t.unproblematic = true

/-- An element of an interface and what it declares. -/
inductive ElemOf (h : Heap) : IfaceElem → GoElem SynName → Prop
  | embed {p e} : h.embeds p = some e → e.type.wellNamed = true →
      ElemOf h (.embed p) (.embed e.type.syntaxName)
  | method {p m} : h.methods p = some m → isIdent m.name = true → m.signature.valid = true →
      m.signature.wellNamed = true → m.signature.unproblematic = true →
      ElemOf h (.method p) (.method m.name m.signature.syntax)

/-- The elements of an interface, in order. -/
inductive ElemsOf (h : Heap) : List IfaceElem → List (GoElem SynName) → Prop
  | nil : ElemsOf h [] []
  | cons {e g es l} : ElemOf h e g → ElemsOf h es l → ElemsOf h (e :: es) (g :: l)

mutual
/-- The body of the spec, as kept in its `structBody` or `interfaceBody`, is the type. All names are
identifiers. Fields with a struct or interface literal or an unnamed spec as type have no tag. -/
inductive BodyOf (h : Heap) : TypeSpec → SynType → Prop
  | struct {ts fs l} : ts.underlying = .struct fs → FieldsOf h ts.structBody l →
      BodyOf h ts (.struct l)
  | iface {ts ms es l} : ts.underlying = .interface ms es → ElemsOf h ts.interfaceBody l →
      BodyOf h ts (.iface l)
  | other {ts} : ts.underlying.isBlock = false → ts.underlying.onLine → BodyOf h ts ts.underlying.syntax
/-- The fields of a struct, in order. -/
inductive FieldsOf (h : Heap) : List Ptr → List (GoField SynName) → Prop
  | nil : FieldsOf h [] []
  | cons {p f g ps l} : h.fields p = some f → FieldOf h f g → FieldsOf h ps l →
      FieldsOf h (p :: ps) (g :: l)
/-- A field and what it declares. -/
inductive FieldOf (h : Heap) : FieldSpec → GoField SynName → Prop
  | line {f t} : f.type = .name t → t.isBlock = false → t.onLine →
      (f.name = [] ∧ t.embeddable = true ∨ isIdent f.name = true) →
      FieldOf h f (.mk (optName f.name) t.syntax (optName f.tag))
  | block {f t} : f.type = .name t → t.isBlock = true → t.valid = true → t.wellNamed = true →
      t.multiline = true → isIdent f.name = true → f.tag = [] →
      FieldOf h f (.mk (some f.name) t.syntax none)
  | named {f q ts s} : f.type = .spec q → h.types q = some ts → ts.name ≠ [] →
      ts.toSymbol h = .ok s → s.wellNamed = true → (f.name = [] ∨ isIdent f.name = true) →
      FieldOf h f (.mk (optName f.name) (.name s.syntaxName) (optName f.tag))
  | unnamed {f q ts t} : f.type = .spec q → h.types q = some ts → ts.name = [] → BodyOf h ts t →
      isIdent f.name = true → f.tag = [] → FieldOf h f (.mk (some f.name) t none)
end

/-- What a spec in a declaration declares. -/
def DeclaresType (h : Heap) (p : Ptr) (d : DeclaredType) : Prop :=
  ∃ ts, h.types p = some ts ∧ isIdent ts.name = true ∧ d.name = ts.name ∧ d.isAlias = ts.isAlias ∧
    BodyOf h ts d.type

/-! ### Bodies and underlying types -/

/-- The type of a field as a type name; a spec stands for the type it names or, without name, for
its underlying type. -/
inductive TypeRef.IsType (h : Heap) : TypeRef → TypeName → Prop
  | nil : IsType h .nil .nil
  | name {t} : IsType h (.name t) t
  | named {q ts s} : h.types q = some ts → ts.name ≠ [] → ts.toSymbol h = .ok s →
      IsType h (.spec q) (.named s)
  | unnamed {q ts} : h.types q = some ts → ts.name = [] → IsType h (.spec q) ts.underlying

/-- A field spec and a field of a struct type with the same name, type and tag. -/
def FieldIs (h : Heap) (p : Ptr) (f : FieldType) : Prop :=
  ∃ F, h.fields p = some F ∧ F.name = f.name ∧ F.tag = f.tag ∧ F.type.IsType h f.type

/-- An embed with that type. -/
def EmbedIs (h : Heap) (e : IfaceElem) (s : Symbol) : Prop :=
  ∃ p E, e = .embed p ∧ h.embeds p = some E ∧ E.type = s

/-- A method with that name and signature. -/
def MethodIs (h : Heap) (e : IfaceElem) (m : MethodType) : Prop :=
  ∃ p M, e = .method p ∧ h.methods p = some M ∧ M.name = m.name ∧ M.signature = m.signature

/-- Whether an element of an interface is an embed. -/
def IfaceElem.isEmbed : IfaceElem → Bool
  | .embed _ => true
  | .method _ => false

/-- The body lists exactly the fields, or embeds and methods, of the type, in order. -/
inductive BodyLists (h : Heap) (ts : TypeSpec) : TypeName → Prop
  | struct {fs} : List.Forall₂ (FieldIs h) ts.structBody fs → ts.interfaceBody = [] →
      BodyLists h ts (.struct fs)
  | iface {ms es} : ts.structBody = [] →
      List.Forall₂ (EmbedIs h) (ts.interfaceBody.filter IfaceElem.isEmbed) es →
      List.Forall₂ (MethodIs h) (ts.interfaceBody.filter (fun e => !e.isEmbed)) ms →
      BodyLists h ts (.interface ms es)
  | other {t} : t.isBlock = false → ts.structBody = [] → ts.interfaceBody = [] → BodyLists h ts t

/-- Whether an element of an interface type is an embedded interface. -/
def GoElem.isEmbed {N : Type} : GoElem N → Bool
  | .embed _ => true
  | .method _ _ => false

/-! ### Functions -/

/-- The part of a function declaration before its body. -/
structure FuncHeader where
  recv : Option (GoParam SynName)
  name : GoString
  sig : SynSig

/-- `func Name Signature {` or `func ( Receiver ) Name Signature {`. -/
def parseFuncHeader (f : Nat) : List Tok → Option FuncHeader
  | .kw .kFunc :: .lparen :: r => do
    let (es, r) ← parseEntries f r
    match ← paramList es, r with
    | ([p], false), .ident n :: r => do
      let (s, r) ← parseSig f r
      if r = [.lbrace] then some ⟨some p, n, s⟩ else none
    | _, _ => none
  | .kw .kFunc :: .ident n :: r => do
    let (s, r) ← parseSig f r
    if r = [.lbrace] then some ⟨none, n, s⟩ else none
  | _ => none

/-- Reads a text as the header of a function. -/
def parseGoFuncHeader (s : GoString) : Option FuncHeader := do
  let toks ← lex s
  parseFuncHeader (4 * toks.length + 4) toks

example : parseGoFuncHeader (b! "func (r *T) Do(n int) error {") =
    some ⟨some (.mk (some (b! "r")) (.ptr (.name (none, b! "T")))), b! "Do",
      .mk [.mk (some (b! "n")) (.name (none, b! "int"))] false [.mk none (.name (none, b! "error"))]⟩ := by
  rfl
example : parseGoFuncHeader (b! "func F() {") = some ⟨none, b! "F", .mk [] false []⟩ := by rfl
example : (parseGoFuncHeader (b! "func (r ...T) Do() {")).isNone := by rfl
example : (parseGoFuncHeader (b! "func () Do() {")).isNone := by rfl

end Gopoet
