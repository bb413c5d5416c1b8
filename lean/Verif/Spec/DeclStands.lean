import Verif.Spec.DeclSyntax
/-!
# What specs stand for

The types that specs declare, whether or not they can be written. The relations `DeclaresType`,
`BodyOf`, `FieldOf` and `ElemOf` are those below with the restrictions under which rendering is right.
-/

namespace Gopoet

/-- An element of an interface and what it stands for. -/
inductive ElemStands (h : Heap) : IfaceElem → GoElem SynName → Prop
  | embed {p e} : h.embeds p = some e → e.type.wellNamed = true →
      ElemStands h (.embed p) (.embed e.type.syntaxName)
  | method {p m} : h.methods p = some m → isIdent m.name = true → m.signature.valid = true →
      m.signature.wellNamed = true → ElemStands h (.method p) (.method m.name m.signature.syntax)

mutual
/-- The body of the spec stands for the type. -/
inductive BodyStands (h : Heap) : TypeSpec → SynType → Prop
  | struct {ts fs l} : ts.underlying = .struct fs → FieldsStand h ts.structBody l →
      BodyStands h ts (.struct l)
  | iface {ts ms es l} : ts.underlying = .interface ms es →
      List.Forall₂ (ElemStands h) ts.interfaceBody l → BodyStands h ts (.iface l)
  | other {ts} : ts.underlying.isBlock = false → ts.underlying.valid = true →
      ts.underlying.wellNamed = true → BodyStands h ts ts.underlying.syntax
/-- The fields of a struct, in order. -/
inductive FieldsStand (h : Heap) : List Ptr → List (GoField SynName) → Prop
  | nil : FieldsStand h [] []
  | cons {p f g ps l} : h.fields p = some f → FieldStands h f g → FieldsStand h ps l →
      FieldsStand h (p :: ps) (g :: l)
/-- A field and what it stands for: its name, its type and its tag. -/
inductive FieldStands (h : Heap) : FieldSpec → GoField SynName → Prop
  | type {f t} : f.type = .name t → t.valid = true → t.wellNamed = true →
      (f.name = [] ∧ t.embeddable = true ∨ isIdent f.name = true) →
      FieldStands h f (.mk (optName f.name) t.syntax (optName f.tag))
  | named {f q ts s} : f.type = .spec q → h.types q = some ts → ts.name ≠ [] →
      ts.toSymbol h = .ok s → s.wellNamed = true → (f.name = [] ∨ isIdent f.name = true) →
      FieldStands h f (.mk (optName f.name) (.name s.syntaxName) (optName f.tag))
  | unnamed {f q ts t} : f.type = .spec q → h.types q = some ts → ts.name = [] → BodyStands h ts t →
      isIdent f.name = true → FieldStands h f (.mk (some f.name) t (optName f.tag))
end

/-- What a spec in a declaration stands for. -/
def StandsType (h : Heap) (p : Ptr) (d : DeclaredType) : Prop :=
  ∃ ts, h.types p = some ts ∧ isIdent ts.name = true ∧ d.name = ts.name ∧ d.isAlias = ts.isAlias ∧
    BodyStands h ts d.type

end Gopoet
