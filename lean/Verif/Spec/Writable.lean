import Verif.Spec.Code
import Verif.Spec.Written
import Verif.Spec.Template
import Verif.Spec.Types
import Verif.Model.File

/-! # Files that can be written

What has to be there for `WriteGoFile` to get to the end: nothing is nil, references refer to something that was added
to a file, no spec contains itself, and no declaration is empty. -/

namespace Gopoet

/-- The argument of a line is a plain value, or stands for something. Specs stand for something if they have one name and
were added to a file. -/
def Arg.Refers (h : Heap) (a : Arg) : Prop :=
  match a with
  | .str _ | .int _ | .sig _ | .sigPtr _ | .ifaceEmbed _ | .field _ | .other _ => True
  | a => ∃ r, Denotes h a r

/-- The types in the argument are valid. -/
def Arg.TypesValid : Arg → Prop
  | .typeName t => t.valid = true
  | .sig s | .sigPtr s => s.valid = true
  | .reflectType t _ => ∀ n, typeNameForReflectType t = .ok n → n.valid = true
  | .goType t _ => ∀ n, typeNameForGoType t = .ok n → n.valid = true
  | _ => True

/-- Template data without invalid types, unexported fields, arrays that are not behind pointers or in slices, pointers to
interfaces, and specs that are missing. (Other data can work too, which depends on the names of the packages: see C42.) -/
structure TVal.Ready (h : Heap) (v : TVal) : Prop where
  present : v.specsPresent h = true
  valid : (TVal.iface acceptsAll v).validTypes = true
  settable : v.settable false = true
  flatPtrs : v.flatPtrs = true

/-- The types in memory are as the constructors make them, and template data can be rebuilt. -/
structure Heap.Sound (h : Heap) : Prop where
  types : ∀ p t, h.types p = some t → t.underlying.valid = true
  fields : ∀ p f t, h.fields p = some f → f.type = .name t → t.valid = true
  values : ∀ p c t, h.values p = some c → c.type = .name t → t.valid = true
  methods : ∀ p m, h.methods p = some m → m.signature.valid = true
  funcs : ∀ p f, h.funcs p = some f → f.signature.valid = true
  args : ∀ p l, h.args p = some l → ∀ a ∈ l, a.TypesValid
  templs : ∀ p t, h.templs p = some t → t.data.Ready h

/-- Nothing in the code is nil, and its arguments refer to something. -/
def CodeElem.Usable (h : Heap) : CodeElem → Prop
  | .line _ q => ∃ l, h.args q = some l ∧ ∀ a ∈ l, a.Refers h
  | .templ q => ∃ t, h.templs q = some t

/-- The element of the interface is not nil. -/
def IfaceElem.There (h : Heap) : IfaceElem → Prop
  | .embed p => ∃ e, h.embeds p = some e
  | .method p => ∃ m, h.methods p = some m

/-- Nothing in the spec is nil, and it does not contain itself: from field to field one always comes to an end. -/
inductive SpecEnds (h : Heap) : Ptr → Prop
  | intro {p t} : h.types p = some t → (∀ q ∈ t.structBody, ∃ f, h.fields q = some f) →
      (∀ q ∈ t.structBody, ∀ f r, h.fields q = some f → f.type = .spec r → SpecEnds h r) →
      (∀ e ∈ t.interfaceBody, e.There h) → SpecEnds h p

/-- The type is a name, nothing, or such a spec. -/
def TypeRef.Ends (h : Heap) : TypeRef → Prop
  | .spec p => SpecEnds h p
  | _ => True

/-- The constant or variable can be qualified. -/
def ValueUsable (h : Heap) (q : Ptr) : Prop :=
  ∃ c, h.values q = some c ∧ c.type.Ends h ∧
    ∀ b, c.init = some b → ∃ cb, h.blocks b = some cb ∧ ∀ e ∈ cb, e.Usable h

/-- All that the element consists of can be qualified. -/
def FileElem.Usable (h : Heap) : FileElem → Prop
  | .values p => ∃ d, h.valueDecls p = some d ∧ ∀ q ∈ d.specs, ValueUsable h q
  | .types p => ∃ d, h.typeDecls p = some d ∧ ∀ q ∈ d.types, SpecEnds h q
  | .func p => ∃ f, h.funcs p = some f ∧ ∀ e ∈ f.code, e.Usable h

/-- The spec was added to a file. -/
def InFile (h : Heap) (parent : Option Ptr) : Prop := ∃ f file, parent = some f ∧ h.files f = some file

/-- In the struct that is written for the spec, also in structs inside of it, each field with the spec of a declared type
refers to one that was added to a file. -/
inductive BodyRefers (h : Heap) : Ptr → Prop
  | intro {p t} : h.types p = some t →
      (∀ fs, t.underlying = .struct fs → ∀ q ∈ t.structBody, ∀ f r s, h.fields q = some f → f.type = .spec r →
        h.types r = some s → s.name = [] → BodyRefers h r) →
      (∀ fs, t.underlying = .struct fs → ∀ q ∈ t.structBody, ∀ f r s, h.fields q = some f → f.type = .spec r →
        h.types r = some s → s.name ≠ [] → InFile h s.parent) → BodyRefers h p

/-- The element can be written: a declaration is not empty, or at least has a comment. -/
def FileElem.Writable (h : Heap) : FileElem → Prop
  | .values p => ∃ d, h.valueDecls p = some d ∧ (d.specs ≠ [] ∨ d.comment ≠ [])
  | .types p => ∃ d, h.typeDecls p = some d ∧ (d.types ≠ [] ∨ d.comment ≠ []) ∧ ∀ q ∈ d.types, BodyRefers h q
  | .func _ => True

/-- The templates in the element can be executed. -/
def FileElem.Executes (env : Env) (h : Heap) (e : FileElem) : Prop :=
  ∀ q t, TemplateIn h e q → h.templs q = some t → env.exec h t.templ t.data ≠ none

/-- Only struct and interface types have fields and methods (as the constructors make them, see C39). -/
def Heap.PlainBodies (h : Heap) : Prop :=
  ∀ p t, h.types p = some t → (t.structBody ≠ [] → ∃ fs, t.underlying = .struct fs) ∧
    (t.interfaceBody ≠ [] → ∃ ms es, t.underlying = .interface ms es)

/-- The code in the element is there, and its arguments refer to something. -/
def FileElem.CodeUsable (h : Heap) : FileElem → Prop
  | .values p => ∀ d, h.valueDecls p = some d → ∀ q ∈ d.specs, ∀ c, h.values q = some c → ∀ b, c.init = some b →
      ∃ cb, h.blocks b = some cb ∧ ∀ e ∈ cb, e.Usable h
  | .types _ => True
  | .func p => ∀ f, h.funcs p = some f → ∀ e ∈ f.code, e.Usable h

end Gopoet
