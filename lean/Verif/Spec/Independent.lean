import Verif.Spec.Template
import Verif.Model.File
/-!
# Specification vocabulary: what a file is made of, and what is the same in two heaps
-/

namespace Gopoet

/-! ### Heaps without what qualification replaces -/

/-- A type is only told to be there. -/
def TypeRef.skeleton : TypeRef → TypeRef
  | .nil => .nil
  | .name _ => .name .nil
  | .spec p => .spec p

/-- see `Heap.skeleton` -/
def ValueSpec.skeleton (c : ValueSpec) : ValueSpec := { c with type := c.type.skeleton }
/-- see `Heap.skeleton` -/
def TypeSpec.skeleton (t : TypeSpec) : TypeSpec := { t with underlying := .nil }
/-- see `Heap.skeleton` -/
def FieldSpec.skeleton (f : FieldSpec) : FieldSpec := { f with type := f.type.skeleton }
/-- see `Heap.skeleton` -/
def InterfaceEmbed.skeleton (e : InterfaceEmbed) : InterfaceEmbed := { e with type := ⟨⟨[], []⟩, []⟩ }
/-- see `Heap.skeleton` -/
def InterfaceMethod.skeleton (m : InterfaceMethod) : InterfaceMethod := { m with signature := ⟨[], [], false⟩ }
/-- see `Heap.skeleton` -/
def FuncSpec.skeleton (f : FuncSpec) : FuncSpec := { f with signature := ⟨[], [], false⟩ }
/-- see `Heap.skeleton` -/
def GoFile.skeleton (f : GoFile) : GoFile := { f with imports := newImportsFor f.imports.pkgPath, elements := [] }

/-- The heap without types and signatures, without the arguments of lines and the data of templates, and without
what files contain and import. Names, comments, tags, what else belongs to what, and the packages of files remain. -/
def Heap.skeleton (h : Heap) : Heap where
  files p := (h.files p).map GoFile.skeleton
  values p := (h.values p).map ValueSpec.skeleton
  valueDecls := h.valueDecls
  types p := (h.types p).map TypeSpec.skeleton
  typeDecls := h.typeDecls
  fields p := (h.fields p).map FieldSpec.skeleton
  embeds p := (h.embeds p).map InterfaceEmbed.skeleton
  methods p := (h.methods p).map InterfaceMethod.skeleton
  funcs p := (h.funcs p).map FuncSpec.skeleton
  blocks := h.blocks
  args _ := none
  templs p := (h.templs p).map fun t => { t with data := .scalar 0 }

/-! ### Pieces of memory -/

/-- A piece of memory that writing a file can change. -/
inductive Place where
  | value (p : Ptr)
  | type (p : Ptr)
  | field (p : Ptr)
  | embed (p : Ptr)
  | method (p : Ptr)
  | func (p : Ptr)
  | args (p : Ptr)
  | templ (p : Ptr)
  deriving DecidableEq, Repr

/-- Two heaps have the same there. -/
def Place.Same (h h' : Heap) : Place → Prop
  | .value p => h'.values p = h.values p
  | .type p => h'.types p = h.types p
  | .field p => h'.fields p = h.fields p
  | .embed p => h'.embeds p = h.embeds p
  | .method p => h'.methods p = h.methods p
  | .func p => h'.funcs p = h.funcs p
  | .args p => h'.args p = h.args p
  | .templ p => h'.templs p = h.templs p

/-- Where the arguments of a line or the data of a template are. -/
def CodeElem.place : CodeElem → Place
  | .line _ p => .args p
  | .templ p => .templ p

/-- see `Place` -/
def IfaceElem.place : IfaceElem → Place
  | .embed p => .embed p
  | .method p => .method p

/-- The pieces that a type spec is made of: the spec, its fields, embeds and methods, and what the specs that are
types of fields are made of. -/
inductive BodyMadeOf (h : Heap) : Ptr → Place → Prop
  | self {p} : BodyMadeOf h p (.type p)
  | field {p ts q} : h.types p = some ts → q ∈ ts.structBody → BodyMadeOf h p (.field q)
  | spec {p ts q f r x} : h.types p = some ts → q ∈ ts.structBody → h.fields q = some f → f.type = .spec r →
      BodyMadeOf h r x → BodyMadeOf h p x
  | elem {p ts e} : h.types p = some ts → e ∈ ts.interfaceBody → BodyMadeOf h p e.place

/-- The line or template is part of the code of the element. -/
inductive CodeIn (h : Heap) : FileElem → CodeElem → Prop
  | init {p d q c b cb x} : h.valueDecls p = some d → q ∈ d.specs → h.values q = some c → c.init = some b →
      h.blocks b = some cb → x ∈ cb → CodeIn h (.values p) x
  | func {p f x} : h.funcs p = some f → x ∈ f.code → CodeIn h (.func p) x

/-- The pieces that the element of a file is made of. -/
inductive MadeOf (h : Heap) : FileElem → Place → Prop
  | value {p d q} : h.valueDecls p = some d → q ∈ d.specs → MadeOf h (.values p) (.value q)
  | valueSpec {p d q c r x} : h.valueDecls p = some d → q ∈ d.specs → h.values q = some c → c.type = .spec r →
      BodyMadeOf h r x → MadeOf h (.values p) x
  | type {p d q x} : h.typeDecls p = some d → q ∈ d.types → BodyMadeOf h q x → MadeOf h (.types p) x
  | func {p} : MadeOf h (.func p) (.func p)
  | code {e x} : CodeIn h e x → MadeOf h e x.place

/-! ### What is shown of other elements

A spec that is given to a line or to a template is shown by its `String` method: a named one by its name and the
package of its file, which are in the skeleton. An unnamed type is shown in full, and an embedded interface by its
type. -/

/-- The pieces, apart from the skeleton, that an argument shows. -/
inductive Arg.Shows (h : Heap) : Arg → Place → Prop
  | embed {p} : Arg.Shows h (.ifaceEmbed p) (.embed p)
  | unnamed {p ts} : h.types p = some ts → ts.name = [] → Arg.Shows h (.typeSpec p) (.type p)

/-- The pieces, apart from the skeleton, that template data shows. -/
inductive TVal.Shows (h : Heap) (v : TVal) : Place → Prop
  | unnamed {p o ts} : (.type p, o) ∈ v.shownSpecs → h.types p = some ts → ts.name = [] → TVal.Shows h v (.type p)

/-- The pieces, apart from the skeleton and from what it is made of, that the element of a file shows. -/
inductive Shows (h : Heap) : FileElem → Place → Prop
  | arg {e format p l a x} : CodeIn h e (.line format p) → h.args p = some l → a ∈ l → a.Shows h x → Shows h e x
  | data {e p t x} : CodeIn h e (.templ p) → h.templs p = some t → t.data.Shows h x → Shows h e x

/-- `fmt` shows specs by their `String` methods only when it is given this format. (This is about formats that
`Verif.Model.Fmt` does not describe; for the others it is so. A format such as `%d` shows the fields of a spec.) -/
def Env.FormatByString (env : Env) (format : GoString) : Prop := ∀ h h' args, h'.skeleton = h.skeleton →
  (∀ a ∈ args, ∀ x, a.Shows h x → x.Same h h') → env.fmtOther h' format args = env.fmtOther h format args

/-- The template shows specs by their `String` methods, or by what is in the skeleton, such as `{{.Name}}`. (It
could call other methods, such as `Underlying`.) -/
def Env.TemplateByString (env : Env) (n : Nat) : Prop := ∀ h h' v, h'.skeleton = h.skeleton →
  (∀ x, v.Shows h x → x.Same h h') → env.exec h' n v = env.exec h n v

/-- This is so for the formats and templates in the code of the element, and for the formats that types are
written with. -/
structure Env.ByString (env : Env) (h : Heap) (e : FileElem) : Prop where
  type : env.FormatByString (b! "%v")
  value : env.FormatByString (b! " %v")
  line : ∀ format p, CodeIn h e (.line format p) → env.FormatByString format
  templ : ∀ p t, CodeIn h e (.templ p) → h.templs p = some t → env.TemplateByString t.templ

/-- `Verif.Model.Fmt` describes what is written for the format and the arguments (and so it shows specs by their
`String` methods), or it is so for the format. -/
def Env.ArgsByString (env : Env) (h : Heap) (format : GoString) (args : List Arg) : Prop :=
  sprintf env.isPrint format (args.map (Arg.shown env.isPrint h)) ≠ none ∨ env.FormatByString format

/-- The template shows the specs in this data by their `String` methods, or by what is in the skeleton. -/
def Env.DataByString (env : Env) (h : Heap) (n : Nat) (v : TVal) : Prop := ∀ h', h'.skeleton = h.skeleton →
  (∀ x, v.Shows h x → x.Same h h') → env.exec h' n v = env.exec h n v

/-- A weaker condition, on an element that is qualified and ready to be written. -/
structure Env.TextByString (env : Env) (h : Heap) (e : FileElem) : Prop where
  type : (∀ p f t, h.fields p = some f → f.type = .name t → t.valid = true) ∨ env.FormatByString (b! "%v")
  value : ∀ p d q c a, e = .values p → h.valueDecls p = some d → q ∈ d.specs → h.values q = some c → c.type.arg = some a →
    env.ArgsByString h (b! " %v") [a]
  line : ∀ format p l, CodeIn h e (.line format p) → h.args p = some l → env.ArgsByString h format l
  templ : ∀ p t, CodeIn h e (.templ p) → h.templs p = some t → env.DataByString h t.templ t.data

/-- The pieces that a file is made of. -/
def FileMadeOf (h : Heap) (p : Ptr) (x : Place) : Prop := ∃ f, h.files p = some f ∧ ∃ e ∈ f.elements, MadeOf h e x

/-- see `Shows` -/
def FileShows (h : Heap) (p : Ptr) (x : Place) : Prop := ∃ f, h.files p = some f ∧ ∃ e ∈ f.elements, Shows h e x

/-- see `Env.ByString` -/
def Env.FileByString (env : Env) (h : Heap) (p : Ptr) : Prop :=
  ∀ f, h.files p = some f → ∀ e ∈ f.elements, env.ByString h e

/-- It is so for the elements of a file, after the file has been qualified. -/
def Env.WritesByString (env : Env) (fuel : Nat) (h : Heap) (p : Ptr) : Prop :=
  ∀ f h', h.files p = some f → qualifyFile fuel p h = (.ok (), h') → ∀ e ∈ f.elements, env.TextByString h' e

/-- What the file at `p` is made of is not part of the file at `q`, nor shown in it. -/
def Undisturbed (h : Heap) (p q : Ptr) : Prop := ∀ x, FileMadeOf h p x → ¬ FileMadeOf h q x ∧ ¬ FileShows h q x

end Gopoet
