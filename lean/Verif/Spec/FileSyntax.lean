import Verif.Spec.DeclSyntax
/-!
# Go's grammar of source files

A parser for source files, from the language specification ("Source file organization",
"Import declarations", "Constant declarations", "Variable declarations", "Function declarations"),
and what the elements of a file in the heap stand for. Function bodies and initialisers, which
gopoet takes as text, are read as tokens with balanced brackets; the grammar of statements and
expressions is not needed to find where they end.
-/

namespace Gopoet

/-! ### Brackets -/

/-- The closing counterpart of an opening bracket. -/
def Tok.closing : Tok → Option Tok
  | .lparen => some .rparen
  | .lbrack => some .rbrack
  | .lbrace => some .rbrace
  | _ => none

/-- Closing brackets. -/
def Tok.isClosing : Tok → Bool
  | .rparen | .rbrack | .rbrace => true
  | _ => false

/-- Tokens in which every bracket has its counterpart, and in which every token outside of brackets
satisfies `p`. -/
inductive Balanced : (Tok → Bool) → List Tok → Prop
  | nil {p} : Balanced p []
  | tok {p t r} : t.closing = none → t.isClosing = false → p t = true → Balanced p r → Balanced p (t :: r)
  | group {p o c a r} : Tok.closing o = some c → Balanced (fun _ => true) a → Balanced p r →
      Balanced p (o :: (a ++ c :: r))

/-- The tokens up to the first one that satisfies `stop` and is not inside of brackets, and the rest,
which starts with that one. The first list has the brackets that have to be closed. -/
def splitOut (stop : Tok → Bool) : List Tok → List Tok → Option (List Tok × List Tok)
  | _, [] => none
  | st, t :: r =>
    if st = [] ∧ stop t = true then some ([], t :: r)
    else match t.closing with
      | some c => (splitOut stop (c :: st) r).map fun x => (t :: x.1, x.2)
      | none =>
        if t.isClosing then
          match st with
          | [] => none
          | c :: st => if c = t then (splitOut stop st r).map fun x => (t :: x.1, x.2) else none
        else (splitOut stop st r).map fun x => (t :: x.1, x.2)

/-! ### Source files -/

/-- An imported package: the name given to it, if any (`.` to import all its names), and its path. -/
structure ImportSyn where
  name : Option GoString
  path : GoString
  deriving DecidableEq

/-- Declared constants or variables: names, type, and the tokens of the initialiser. -/
structure ValueSyn where
  names : List GoString
  type : Option SynType
  init : Option (List Tok)

/-- A declaration. -/
inductive DeclSyn where
  | type (d : TypeDeclSyn)
  | value (isConst : Bool) (v : ValueSyn)
  | values (isConst : Bool) (vs : List ValueSyn)
  | func (h : FuncHeader) (body : Option (List Tok))

/-- A source file. -/
structure SourceFile where
  package : GoString
  imports : List ImportSyn
  decls : List DeclSyn

/-- `"path"`, `name "path"` or `. "path"`. -/
def parseImportSpec : List Tok → Option (ImportSyn × List Tok)
  | .str p :: r => some (⟨none, p⟩, r)
  | .ident n :: .str p :: r => some (⟨some n, p⟩, r)
  | .dot :: .str p :: r => some (⟨some (b! "."), p⟩, r)
  | _ => none

/-- The imports of a group up to and including the closing parenthesis. -/
def parseImportSpecs : Nat → List Tok → Option (List ImportSyn × List Tok)
  | _ + 1, .rparen :: r => some ([], r)
  | f + 1, toks => do
    let (i, r) ← parseImportSpec toks
    match r with
    | .semi :: r => do let (is, r) ← parseImportSpecs f r; some (i :: is, r)
    | .rparen :: r => some ([i], r)
    | _ => none
  | 0, _ => none

/-- The import declarations at the start of the tokens, and the rest. -/
def parseImports : Nat → List Tok → Option (List ImportSyn × List Tok)
  | f + 1, .kw .kImport :: r => do
    let (is, r) ← (match r with
      | .lparen :: r => parseImportSpecs f r
      | r => (parseImportSpec r).map fun x => ([x.1], x.2))
    match r with
    | .semi :: r => do let (is', r) ← parseImports f r; some (is ++ is', r)
    | [] => some (is, [])
    | _ => none
  | 0, .kw .kImport :: _ => none
  | _, toks => some ([], toks)

/-- Where the type or the initialiser of a constant or variable ends. -/
def endsSpec (t : Tok) : Bool := t == .semi || t == .rparen

/-- An optional type. -/
def optType (f : Nat) : List Tok → Option (Option SynType × List Tok)
  | [] => some (none, [])
  | t :: r => if t == .assign || endsSpec t then some (none, t :: r)
    else (parseType f (t :: r)).map fun x => (some x.1, x.2)

/-- An optional initialiser, which is not empty. -/
def optInit : List Tok → Option (Option (List Tok) × List Tok)
  | .assign :: r => do
    let (e, r) ← splitOut endsSpec [] r
    if e = [] then none else some (some e, r)
  | r => some (none, r)

/-- What has to be there: a constant with a type has an initialiser, a variable has a type or an
initialiser. -/
def ValueSyn.complete (isConst : Bool) (v : ValueSyn) : Bool :=
  if isConst then v.type.isNone || v.init.isSome else v.type.isSome || v.init.isSome

/-- `names`, `names Type`, `names = ...` or `names Type = ...`. -/
def parseValueSpec (isConst : Bool) (f : Nat) (toks : List Tok) : Option (ValueSyn × List Tok) := do
  let (ns, r) ← identList toks
  let (t, r) ← optType f r
  let (e, r) ← optInit r
  if ValueSyn.complete isConst ⟨ns, t, e⟩ then some (⟨ns, t, e⟩, r) else none

/-- The constants or variables of a group up to and including the closing parenthesis. -/
def parseValueSpecs (isConst : Bool) : Nat → List Tok → Option (List ValueSyn × List Tok)
  | _ + 1, .rparen :: r => some ([], r)
  | f + 1, toks => do
    let (v, r) ← parseValueSpec isConst f toks
    match r with
    | .semi :: r => do let (vs, r) ← parseValueSpecs isConst f r; some (v :: vs, r)
    | .rparen :: r => some ([v], r)
    | _ => none
  | 0, _ => none

/-- The declaration of constants or variables after the keyword. -/
def parseValueDecl (isConst : Bool) (f : Nat) : List Tok → Option (DeclSyn × List Tok)
  | .lparen :: r => do let (vs, r) ← parseValueSpecs isConst f r; some (.values isConst vs, r)
  | r => do let (v, r) ← parseValueSpec isConst f r; some (.value isConst v, r)

/-- `func Name Signature` or `func ( Receiver ) Name Signature`. -/
def parseFuncHead (f : Nat) : List Tok → Option (FuncHeader × List Tok)
  | .kw .kFunc :: .lparen :: r => do
    let (es, r) ← parseEntries f r
    match ← paramList es, r with
    | ([p], false), .ident n :: r => do
      let (s, r) ← parseSig f r
      some (⟨some p, n, s⟩, r)
    | _, _ => none
  | .kw .kFunc :: .ident n :: r => do
    let (s, r) ← parseSig f r
    some (⟨none, n, s⟩, r)
  | _ => none

/-- An optional function body: everything up to the matching brace. -/
def optBody : List Tok → Option (Option (List Tok) × List Tok)
  | .lbrace :: r => do
    let (b, r) ← splitOut (· == .rbrace) [] r
    some (some b, r.tail)
  | r => some (none, r)

/-- A declaration at the start of the tokens. -/
def parseDecl (f : Nat) : List Tok → Option (DeclSyn × List Tok)
  | .kw .kType :: r => (parseTypeDecl f (.kw .kType :: r)).map fun x => (.type x.1, x.2)
  | .kw .kConst :: r => parseValueDecl true f r
  | .kw .kVar :: r => parseValueDecl false f r
  | .kw .kFunc :: r => do
    let (h, r) ← parseFuncHead f (.kw .kFunc :: r)
    let (b, r) ← optBody r
    some (.func h b, r)
  | _ => none

/-- Declarations up to the end. -/
def parseDecls : Nat → List Tok → Option (List DeclSyn)
  | _, [] => some []
  | 0, _ :: _ => none
  | f + 1, toks => do
    let (d, r) ← parseDecl f toks
    match r with
    | .semi :: r => do let ds ← parseDecls f r; some (d :: ds)
    | [] => some [d]
    | _ => none

/-- Reads a text as a source file. -/
def parseGoFile (s : GoString) : Option SourceFile := do
  let toks ← lex s
  match insertSemis toks with
  | .kw .kPackage :: .ident n :: .semi :: r => do
    let (is, r) ← parseImports (r.length + 1) r
    let ds ← parseDecls (4 * r.length + 4) r
    some ⟨n, is, ds⟩
  | _ => none

set_option maxRecDepth 4000 in
example : parseGoFile (b! "// doc\npackage p // c\n\nimport \"a/b\"\nimport (\n . \"c\"\n d \"e\"\n)\n\nvar x, y = f(1), func() {\n return; }\nconst (\nA B = iota\nC\n)\nfunc (r *T) M(n int) error {\nif n > 0 {\nreturn nil\n}\n}\n") =
    some ⟨b! "p", [⟨none, b! "a/b"⟩, ⟨some (b! "."), b! "c"⟩, ⟨some (b! "d"), b! "e"⟩],
      [.value false ⟨[b! "x", b! "y"], none, some [.ident (b! "f"), .lparen, .int 1, .rparen, .comma,
          .kw .kFunc, .lparen, .rparen, .lbrace, .kw .kReturn, .semi, .rbrace]⟩,
       .values true [⟨[b! "A"], some (.name (none, b! "B")), some [.ident (b! "iota")]⟩,
         ⟨[b! "C"], none, none⟩],
       .func ⟨some (.mk (some (b! "r")) (.ptr (.name (none, b! "T")))), b! "M",
           .mk [.mk (some (b! "n")) (.name (none, b! "int"))] false [.mk none (.name (none, b! "error"))]⟩
         (some [.kw .kIf, .ident (b! "n"), .op 62, .int 0, .lbrace, .kw .kReturn, .ident (b! "nil"), .semi,
           .rbrace, .semi])]⟩ := by rfl
example : (parseGoFile (b! "package p\nvar x\n")).isNone := by rfl
example : (parseGoFile (b! "package p\nconst x int\n")).isNone := by rfl
example : (parseGoFile (b! "package p\nfunc f() {\n(}\n)}\n")).isNone := by rfl
example : (parseGoFile (b! "package p\nfunc f() {\n}\nimport \"a\"\n")).isNone := by rfl
example : (parseGoFile (b! "package p\nvar x = 1; 3\n")).isNone := by rfl

/-! ### What the elements of a file declare -/

/-- The tokens of the code of a function. It consists of whole lines, or its last line can be followed
by a brace (which a comment up to the end of the line cannot); brackets are balanced. -/
inductive BodyToks : GoString → List Tok → Prop
  | lines {a ts} : lex a = some ts → Balanced (fun _ => true) (insertSemis ts) →
      BodyToks (a ++ b! "\n") (insertSemis ts)
  | open {a ts} : lex a = some ts → lex (a ++ b! "}") = some (ts ++ [.rbrace]) →
      Balanced (fun _ => true) (semiStep false ts).1 → BodyToks a (semiStep false ts).1

/-- The tokens of an initialiser: it is not empty, brackets are balanced, and no line end outside of
brackets ends it. -/
def InitToks (a : GoString) (e : List Tok) : Prop :=
  ∃ ts, lex a = some ts ∧ insertSemis ts = e ++ [.semi] ∧ e ≠ [] ∧ Balanced (fun t => !endsSpec t) e

/-- The type of a constant or variable as it is written. -/
inductive TypeRef.Reads (h : Heap) : TypeRef → Option SynType → Prop
  | nil : Reads h .nil none
  | name {t} : t.onLine → Reads h (.name t) (some t.syntax)
  | spec {q ts s} : h.types q = some ts → ts.name ≠ [] → ts.toSymbol h = .ok s → s.wellNamed = true →
      Reads h (.spec q) (some (.name s.syntaxName))

/-- The initialiser of a constant or variable. -/
inductive InitReads (env : Env) (h : Heap) : Option Ptr → Option (List Tok) → Prop
  | none : InitReads env h none none
  | some {b cb a e} : h.blocks b = some cb → codeText env h cb = .ok a → InitToks a e →
      InitReads env h (some b) (some e)

/-- Constants or variables and what they declare. -/
def DeclaresValue (env : Env) (h : Heap) (isConst : Bool) (p : Ptr) (v : ValueSyn) : Prop :=
  ∃ c, h.values p = some c ∧ c.names ≠ [] ∧ (∀ n ∈ c.names, isIdent n = true) ∧ v.names = c.names ∧
    c.type.Reads h v.type ∧ InitReads env h c.init v.init ∧ v.complete isConst = true

/-- The receiver in the header of a method. -/
def ReceiverSpec.param (r : ReceiverSpec) : GoParam SynName :=
  .mk (optName r.name) (if r.isPointer then .ptr (.name (none, r.type)) else .name (none, r.type))

/-- An element of a file and what it declares. -/
inductive Declares (env : Env) (h : Heap) : FileElem → DeclSyn → Prop
  | type {p d x} : h.typeDecls p = some d → d.types.length = 1 → d.comment = [] →
      List.Forall₂ (DeclaresType h) d.types [x] → Declares env h (.types p) (.type (.single x))
  | types {p d ds} : h.typeDecls p = some d → d.types.length > 1 ∨ d.comment ≠ [] →
      List.Forall₂ (DeclaresType h) d.types ds → Declares env h (.types p) (.type (.group ds))
  | value {p d x} : h.valueDecls p = some d → d.specs.length = 1 → d.comment = [] →
      List.Forall₂ (DeclaresValue env h (d.kind == .const)) d.specs [x] →
      Declares env h (.values p) (.value (d.kind == .const) x)
  | values {p d vs} : h.valueDecls p = some d → d.specs.length > 1 ∨ d.comment ≠ [] →
      List.Forall₂ (DeclaresValue env h (d.kind == .const)) d.specs vs →
      Declares env h (.values p) (.values (d.kind == .const) vs)
  | func {p f code body} : h.funcs p = some f → isIdent f.name = true → f.signature.valid = true →
      f.signature.wellNamed = true → f.signature.unproblematic = true →
      (∀ r, f.receiver = some r → (r.name = [] ∨ isIdent r.name = true) ∧ isIdent r.type = true) →
      codeText env h f.code = .ok code → BodyToks code body →
      Declares env h (.func p)
        (.func ⟨f.receiver.map ReceiverSpec.param, f.name, f.signature.syntax⟩ (some body))

/-- The import statement of a package. -/
def ImportSpec.syn (s : ImportSpec) : ImportSyn := ⟨optName s.packageAlias, s.importPath⟩

end Gopoet
