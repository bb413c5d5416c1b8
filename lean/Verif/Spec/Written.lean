import Verif.Spec.Code
import Verif.Spec.Template
import Verif.Model.File
/-!
# Specification vocabulary for files: the packages that are referred to in what is rendered

A reference is written with the name of its package as qualifier (`Symbol.String`, C08), so a
package here is a pair of the qualifier and the path that is meant by it.
-/

namespace Gopoet

/-- The packages that a reference mentions. -/
def Reference.packages : Reference → List Package
  | .package p => [p]
  | .symbol s => [s.package]
  | .method m => [m.type.package]
  | .type t => t.symbols.map (·.package)

/-- The packages that a format argument mentions: those of what it stands for and, for a signature,
those of its types. -/
inductive WrittenArg (h : Heap) : Arg → Package → Prop
  | ref {a r pk} : Denotes h a r → pk ∈ r.packages → WrittenArg h a pk
  | sig {s : Signature} {pk} : pk ∈ s.symbols.map (·.package) → WrittenArg h (.sig s) pk
  | sigPtr {s : Signature} {pk} : pk ∈ s.symbols.map (·.package) → WrittenArg h (.sigPtr s) pk

/-- The packages mentioned in a line or in the data of a template. -/
inductive WrittenCodeElem (h : Heap) : CodeElem → Package → Prop
  | line {format p l a pk} : h.args p = some l → a ∈ l → WrittenArg h a pk →
      WrittenCodeElem h (.line format p) pk
  | templ {p t pk} : h.templs p = some t → pk ∈ (TVal.iface acceptsAll t.data).refs →
      WrittenCodeElem h (.templ p) pk

/-- The packages mentioned in an element of an interface. -/
inductive WrittenIfaceElem (h : Heap) : IfaceElem → Package → Prop
  | embed {p e} : h.embeds p = some e → WrittenIfaceElem h (.embed p) e.type.package
  | method {p m pk} : h.methods p = some m → pk ∈ m.signature.symbols.map (·.package) →
      WrittenIfaceElem h (.method p) pk

/-- The packages mentioned in the right-hand side of a type declaration: in the underlying type
and in the fields, embeds and methods of the body. For a field whose type is an unnamed
`*TypeSpec` those in that spec's body (the spec of a named one is another declaration). -/
inductive WrittenBody (h : Heap) : Ptr → Package → Prop
  | underlying {p ts pk} : h.types p = some ts → pk ∈ ts.underlying.symbols.map (·.package) →
      WrittenBody h p pk
  | field {p ts q f t pk} : h.types p = some ts → q ∈ ts.structBody → h.fields q = some f →
      f.type = .name t → pk ∈ t.symbols.map (·.package) → WrittenBody h p pk
  | unnamed {p ts q f r tr pk} : h.types p = some ts → q ∈ ts.structBody → h.fields q = some f →
      f.type = .spec r → h.types r = some tr → tr.name = [] → WrittenBody h r pk → WrittenBody h p pk
  | iface {p ts e pk} : h.types p = some ts → e ∈ ts.interfaceBody → WrittenIfaceElem h e pk →
      WrittenBody h p pk

/-- The packages mentioned in an element of a file. -/
inductive Written (h : Heap) : FileElem → Package → Prop
  | valueType {p d q c t pk} : h.valueDecls p = some d → q ∈ d.specs → h.values q = some c →
      c.type = .name t → pk ∈ t.symbols.map (·.package) → Written h (.values p) pk
  | valueSpec {p d q c r tr pk} : h.valueDecls p = some d → q ∈ d.specs → h.values q = some c →
      c.type = .spec r → h.types r = some tr → tr.name = [] → WrittenBody h r pk →
      Written h (.values p) pk
  | valueInit {p d q c b cb x pk} : h.valueDecls p = some d → q ∈ d.specs → h.values q = some c →
      c.init = some b → h.blocks b = some cb → x ∈ cb → WrittenCodeElem h x pk →
      Written h (.values p) pk
  | type {p d q pk} : h.typeDecls p = some d → q ∈ d.types → WrittenBody h q pk →
      Written h (.types p) pk
  | funcSig {p f pk} : h.funcs p = some f → pk ∈ f.signature.symbols.map (·.package) →
      Written h (.func p) pk
  | funcCode {p f x pk} : h.funcs p = some f → x ∈ f.code → WrittenCodeElem h x pk →
      Written h (.func p) pk

/-! ### Everything that is mentioned anywhere on the heap -/

/-- The packages that an argument itself carries. (Specs belong to the package of a file.) -/
def Arg.packages : Arg → List Package
  | .package p => [p]
  | .packagePtr p => [p]
  | .symbol s => [s.package]
  | .symbolPtr s => [s.package]
  | .mref m => [m.type.package]
  | .mrefPtr m => [m.type.package]
  | .sig s => s.symbols.map (·.package)
  | .sigPtr s => s.symbols.map (·.package)
  | .typeName t => t.symbols.map (·.package)
  | .reflectType t _ => convertedRefs (typeNameForReflectType t)
  | .goType t _ => convertedRefs (typeNameForGoType t)
  | .goObject o _ => objectRefs (symbolForGoObject o)
  | .goPackage g _ => [⟨g.path, g.name⟩]
  | _ => []

/-- The packages that an argument hands over as packages, and not as the home of a symbol. -/
def Arg.handed : Arg → List Package
  | .package p => [p]
  | .packagePtr p => [p]
  | .goPackage g _ => [⟨g.path, g.name⟩]
  | _ => []

/-- Packages that are mentioned in a heap: those of its files, and those in types, signatures,
arguments and template data. -/
inductive Mentioned (h : Heap) : Package → Prop
  | file {p f} : h.files p = some f → Mentioned h f.package
  | value {p c t pk} : h.values p = some c → c.type = .name t → pk ∈ t.symbols.map (·.package) →
      Mentioned h pk
  | type {p ts pk} : h.types p = some ts → pk ∈ ts.underlying.symbols.map (·.package) → Mentioned h pk
  | field {p f t pk} : h.fields p = some f → f.type = .name t → pk ∈ t.symbols.map (·.package) →
      Mentioned h pk
  | embed {p e} : h.embeds p = some e → Mentioned h e.type.package
  | method {p m pk} : h.methods p = some m → pk ∈ m.signature.symbols.map (·.package) → Mentioned h pk
  | func {p f pk} : h.funcs p = some f → pk ∈ f.signature.symbols.map (·.package) → Mentioned h pk
  | arg {p l a pk} : h.args p = some l → a ∈ l → pk ∈ a.packages → Mentioned h pk
  | templ {p t pk} : h.templs p = some t → pk ∈ (TVal.iface acceptsAll t.data).packages → Mentioned h pk

/-- The code of the element of a file has the template in it. -/
inductive TemplateIn (h : Heap) : FileElem → Ptr → Prop
  | init {p d q c b cb x} : h.valueDecls p = some d → q ∈ d.specs → h.values q = some c → c.init = some b →
      h.blocks b = some cb → .templ x ∈ cb → TemplateIn h (.values p) x
  | func {p f x} : h.funcs p = some f → .templ x ∈ f.code → TemplateIn h (.func p) x

/-- The data of a template in the element has the spec in it, and it is shown with the package name as
qualifier: the name of the package that it is declared in, or that of the copy that stands for it. Specs
without file have no qualifier. -/
inductive ShownSpec (h : Heap) : FileElem → SpecRef → Package → Prop
  | kept {e q t r p f} : TemplateIn h e q → h.templs q = some t → (r, none) ∈ t.data.shownSpecs →
      r.parent h = .ok (some p) → h.files p = some f → ShownSpec h e r f.package
  | copied {e q t r n p f} : TemplateIn h e q → h.templs q = some t → (r, some n) ∈ t.data.shownSpecs →
      r.parent h = .ok (some p) → h.files p = some f → ShownSpec h e r ⟨f.package.importPath, n⟩

end Gopoet
