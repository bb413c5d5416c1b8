import Verif.Spec.Written
import Verif.Spec.DeclSyntax
/-!
# Specification vocabulary for files: the packages that are visited when a file is written, and those it uses

Like `Written`, but with everything that is reached from the elements of the file, no matter whether it is
written there: also the bodies of the named `*TypeSpec`s that are types of constants, variables and fields
(which are written where the spec is declared; here only the name is), and the packages of the specs in the
data of templates.

`Used` is the opposite: only what stands in the text with the name of the package as its qualifier. What is
given to a line or to a template counts as used there (what `fmt` and templates do with it is the business of
those who call them).
-/

namespace Gopoet

/-- The packages that are reached in a line or in the data of a template. -/
inductive VisitedCodeElem (h : Heap) : CodeElem → Package → Prop
  | line {format p l a pk} : h.args p = some l → a ∈ l → WrittenArg h a pk →
      VisitedCodeElem h (.line format p) pk
  | templ {p t pk} : h.templs p = some t → pk ∈ (TVal.iface acceptsAll t.data).mentions h →
      VisitedCodeElem h (.templ p) pk

/-- The packages that are reached from a type declaration: those of its underlying type and those in the
fields, embeds and methods of its body. From a field whose type is a `*TypeSpec` those that are reached from
that spec. -/
inductive VisitedBody (h : Heap) : Ptr → Package → Prop
  | underlying {p ts pk} : h.types p = some ts → pk ∈ ts.underlying.symbols.map (·.package) →
      VisitedBody h p pk
  | field {p ts q f t pk} : h.types p = some ts → q ∈ ts.structBody → h.fields q = some f →
      f.type = .name t → pk ∈ t.symbols.map (·.package) → VisitedBody h p pk
  | spec {p ts q f r pk} : h.types p = some ts → q ∈ ts.structBody → h.fields q = some f →
      f.type = .spec r → VisitedBody h r pk → VisitedBody h p pk
  | iface {p ts e pk} : h.types p = some ts → e ∈ ts.interfaceBody → WrittenIfaceElem h e pk →
      VisitedBody h p pk

/-- The packages that are reached from an element of a file. -/
inductive Visited (h : Heap) : FileElem → Package → Prop
  | valueType {p d q c t pk} : h.valueDecls p = some d → q ∈ d.specs → h.values q = some c →
      c.type = .name t → pk ∈ t.symbols.map (·.package) → Visited h (.values p) pk
  | valueSpec {p d q c r pk} : h.valueDecls p = some d → q ∈ d.specs → h.values q = some c →
      c.type = .spec r → VisitedBody h r pk → Visited h (.values p) pk
  | valueInit {p d q c b cb x pk} : h.valueDecls p = some d → q ∈ d.specs → h.values q = some c →
      c.init = some b → h.blocks b = some cb → x ∈ cb → VisitedCodeElem h x pk →
      Visited h (.values p) pk
  | type {p d q pk} : h.typeDecls p = some d → q ∈ d.types → VisitedBody h q pk →
      Visited h (.types p) pk
  | funcSig {p f pk} : h.funcs p = some f → pk ∈ f.signature.symbols.map (·.package) →
      Visited h (.func p) pk
  | funcCode {p f x pk} : h.funcs p = some f → x ∈ f.code → VisitedCodeElem h x pk →
      Visited h (.func p) pk

/-! ### What is used -/

/-- The packages that an argument is written with, in a file with the imports `i`: those of the references that it
stands for, and those in signatures and embedded interfaces. A method that is given as a spec or as a `types.Object`
is only written with its package if the package has another name in the file (C33). -/
inductive UsedArg (h : Heap) (i : Imports) : Arg → Package → Prop
  | ref {a r pk} : Denotes h a r → pk ∈ r.packages →
      (∀ m, r = .method m → a = .mref m ∨ a = .mrefPtr m ∨ i.qualifierOf pk.importPath ≠ pk.name) → UsedArg h i a pk
  | sig {s : Signature} {pk} : pk ∈ s.symbols.map (·.package) → UsedArg h i (.sig s) pk
  | sigPtr {s : Signature} {pk} : pk ∈ s.symbols.map (·.package) → UsedArg h i (.sigPtr s) pk
  | embed {p e} : h.embeds p = some e → UsedArg h i (.ifaceEmbed p) e.type.package

/-- The packages that a line or a template is written with. -/
inductive UsedCodeElem (h : Heap) (i : Imports) : CodeElem → Package → Prop
  | line {format p l a pk} : h.args p = some l → a ∈ l → UsedArg h i a pk → UsedCodeElem h i (.line format p) pk
  | templ {p t pk} : h.templs p = some t → pk ∈ (TVal.iface acceptsAll t.data).mentions h →
      UsedCodeElem h i (.templ p) pk

/-- The packages in the right-hand side of a type declaration: for a struct those in its fields, for an interface
those in its elements, otherwise those of the type. A field whose type is an unnamed `*TypeSpec` is written with
that spec's body, one whose type is a named `*TypeSpec` with the package of the file that declares it. -/
inductive UsedBody (h : Heap) : Ptr → Package → Prop
  | underlying {p ts pk} : h.types p = some ts → ts.underlying.isBlock = false →
      pk ∈ ts.underlying.symbols.map (·.package) → UsedBody h p pk
  | field {p ts fs q f t pk} : h.types p = some ts → ts.underlying = .struct fs → q ∈ ts.structBody →
      h.fields q = some f → f.type = .name t → pk ∈ t.symbols.map (·.package) → UsedBody h p pk
  | unnamed {p ts fs q f r tr pk} : h.types p = some ts → ts.underlying = .struct fs → q ∈ ts.structBody →
      h.fields q = some f → f.type = .spec r → h.types r = some tr → tr.name = [] → UsedBody h r pk → UsedBody h p pk
  | named {p ts fs q f r tr fp file} : h.types p = some ts → ts.underlying = .struct fs → q ∈ ts.structBody →
      h.fields q = some f → f.type = .spec r → h.types r = some tr → tr.name ≠ [] → tr.parent = some fp →
      h.files fp = some file → UsedBody h p file.package
  | iface {p ts ms es e pk} : h.types p = some ts → ts.underlying = .interface ms es → e ∈ ts.interfaceBody →
      WrittenIfaceElem h e pk → UsedBody h p pk

/-- The packages that an element of a file is written with. -/
inductive Used (h : Heap) (i : Imports) : FileElem → Package → Prop
  | valueType {p d q c t pk} : h.valueDecls p = some d → q ∈ d.specs → h.values q = some c →
      c.type = .name t → pk ∈ t.symbols.map (·.package) → Used h i (.values p) pk
  | valueUnnamed {p d q c r tr pk} : h.valueDecls p = some d → q ∈ d.specs → h.values q = some c →
      c.type = .spec r → h.types r = some tr → tr.name = [] → UsedBody h r pk → Used h i (.values p) pk
  | valueNamed {p d q c r tr fp file} : h.valueDecls p = some d → q ∈ d.specs → h.values q = some c →
      c.type = .spec r → h.types r = some tr → tr.name ≠ [] → tr.parent = some fp →
      h.files fp = some file → Used h i (.values p) file.package
  | valueInit {p d q c b cb x pk} : h.valueDecls p = some d → q ∈ d.specs → h.values q = some c →
      c.init = some b → h.blocks b = some cb → x ∈ cb → UsedCodeElem h i x pk → Used h i (.values p) pk
  | type {p d q pk} : h.typeDecls p = some d → q ∈ d.types → UsedBody h q pk → Used h i (.types p) pk
  | funcSig {p f pk} : h.funcs p = some f → pk ∈ f.signature.symbols.map (·.package) → Used h i (.func p) pk
  | funcCode {p f x pk} : h.funcs p = some f → x ∈ f.code → UsedCodeElem h i x pk → Used h i (.func p) pk

end Gopoet
