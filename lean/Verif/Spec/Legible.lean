import Verif.Model.File
import Verif.Spec.StringLit
import Verif.Spec.Independent
import Verif.Spec.Renamed
/-!
# Strings that may be in Go source text

For C74: the strings in types, specs and files that the code writes as they are (comments, names, formats, but not
tags and import paths, which it quotes).
-/

namespace Gopoet

/-- A reference is written as a package name and a name. -/
def Symbol.Legible (s : Symbol) : Prop := SourceText s.package.name ∧ SourceText s.name

mutual
/-- All names in a type are source text. -/
def TypeName.Legible : TypeName → Prop
  | .nil => True
  | .basic _ => True
  | .named s => s.Legible
  | .ptr e => e.Legible
  | .slice e => e.Legible
  | .array e _ => e.Legible
  | .chan e _ => e.Legible
  | .map e k => e.Legible ∧ k.Legible
  | .func s => s.Legible
  | .struct fs => LegibleFields fs
  | .interface ms es => LegibleMethods ms ∧ ∀ s ∈ es, s.Legible
/-- see `TypeName.Legible` -/
def Signature.Legible : Signature → Prop
  | ⟨args, results, _⟩ => LegibleArgs args ∧ LegibleArgs results
/-- see `TypeName.Legible` -/
def LegibleArgs : List ArgType → Prop
  | [] => True
  | ⟨n, t⟩ :: l => SourceText n ∧ t.Legible ∧ LegibleArgs l
/-- see `TypeName.Legible`; tags may be any strings -/
def LegibleFields : List FieldType → Prop
  | [] => True
  | ⟨n, t, _⟩ :: l => SourceText n ∧ t.Legible ∧ LegibleFields l
/-- see `TypeName.Legible` -/
def LegibleMethods : List MethodType → Prop
  | [] => True
  | ⟨n, s⟩ :: l => SourceText n ∧ s.Legible ∧ LegibleMethods l
end

mutual
/-- All names in a reflect type are source text. -/
def RT.Legible : RT → Prop
  | .defined _ _ n => SourceText n
  | .ptr e => e.Legible
  | .slice e => e.Legible
  | .array e _ => e.Legible
  | .chan _ e => e.Legible
  | .map k e => k.Legible ∧ e.Legible
  | .func s => s.Legible
  | .struct fs => LegibleRTFields fs
  | .interface ms => LegibleRTMethods ms
/-- see `RT.Legible` -/
def RTSig.Legible : RTSig → Prop
  | .mk ins outs _ => LegibleRTs ins ∧ LegibleRTs outs
/-- see `RT.Legible` -/
def LegibleRTs : List RT → Prop
  | [] => True
  | t :: l => t.Legible ∧ LegibleRTs l
/-- see `RT.Legible` -/
def LegibleRTFields : List RTField → Prop
  | [] => True
  | .mk n _ t _ :: l => SourceText n ∧ t.Legible ∧ LegibleRTFields l
/-- see `RT.Legible` -/
def LegibleRTMethods : List RTMethod → Prop
  | [] => True
  | .mk n s :: l => SourceText n ∧ s.Legible ∧ LegibleRTMethods l
end

/-- The name of a go/types package is source text. -/
def TypesPackage.Legible (p : TypesPackage) : Prop := SourceText p.name

/-- The name of a go/types type and of its package are source text. -/
def TypesName.Legible (n : TypesName) : Prop := SourceText n.name ∧ ∀ p, n.pkg = some p → p.Legible

mutual
/-- All names in a go/types type are source text. -/
def GT.Legible : GT → Prop
  | .named n => n.Legible
  | .basic _ => True
  | .map k e => k.Legible ∧ e.Legible
  | .slice e => e.Legible
  | .array e _ => e.Legible
  | .pointer e => e.Legible
  | .chan _ e => e.Legible
  | .signature s => s.Legible
  | .struct fs => LegibleGTFields fs
  | .interface es ms => (∀ n, some n ∈ es → n.Legible) ∧ LegibleGTMethods ms
  | .other => True
/-- see `GT.Legible` -/
def GTSig.Legible : GTSig → Prop
  | .mk recv params results _ => recv.Legible ∧ LegibleGTVars params ∧ LegibleGTVars results
/-- see `GT.Legible` -/
def GTRecv.Legible : GTRecv → Prop
  | .none => True
  | .iface => True
  | .concrete n t => SourceText n ∧ t.Legible
/-- see `GT.Legible` -/
def LegibleGTVars : List GTVar → Prop
  | [] => True
  | .mk n t :: l => SourceText n ∧ t.Legible ∧ LegibleGTVars l
/-- see `GT.Legible` -/
def LegibleGTFields : List GTField → Prop
  | [] => True
  | .mk n _ t _ :: l => SourceText n ∧ t.Legible ∧ LegibleGTFields l
/-- see `GT.Legible` -/
def LegibleGTMethods : List GTMethod → Prop
  | [] => True
  | .mk n s :: l => SourceText n ∧ s.Legible ∧ LegibleGTMethods l
end

/-- The names in a go/types object are source text. -/
def TypesObject.Legible : TypesObject → Prop
  | .func pkg n recv => SourceText n ∧ (∀ p, pkg = some p → p.Legible) ∧ ∀ t, recv = some t → t.Legible
  | .other pkg n => SourceText n ∧ ∀ p, pkg = some p → p.Legible

/-- What an argument of a line has in it is source text. -/
def Arg.Legible : Arg → Prop
  | .str s => SourceText s
  | .int _ => True
  | .package p | .packagePtr p => SourceText p.name
  | .symbol s | .symbolPtr s => s.Legible
  | .mref m | .mrefPtr m => m.type.Legible ∧ SourceText m.method
  | .sig s | .sigPtr s => s.Legible
  | .typeName t => t.Legible
  | .value _ | .typeSpec _ | .ifaceMethod _ | .func _ | .ifaceEmbed _ | .field _ => True
  | .reflectType t s => t.Legible ∧ SourceText s
  | .goType t s => t.Legible ∧ SourceText s
  | .goObject o s => o.Legible ∧ SourceText s
  | .goPackage p s => p.Legible ∧ SourceText s
  | .other _ => True

/-- The names in the type of a field, const or var are source text. -/
def TypeRef.Legible : TypeRef → Prop
  | .name t => t.Legible
  | _ => True

/-- The strings in specs, declarations and arguments are source text, and so are the comments and the package names
of files. -/
structure Heap.Legible (h : Heap) : Prop where
  files : ∀ p f, h.files p = some f → SourceText f.fileComment ∧ SourceText f.packageComment ∧ SourceText f.packageName
  values : ∀ p s, h.values p = some s → SourceText s.comment ∧ (∀ n ∈ s.names, SourceText n) ∧ s.type.Legible
  valueDecls : ∀ p d, h.valueDecls p = some d → SourceText d.comment
  types : ∀ p s, h.types p = some s → SourceText s.comment ∧ SourceText s.name ∧ s.underlying.Legible
  typeDecls : ∀ p d, h.typeDecls p = some d → SourceText d.comment
  fields : ∀ p f, h.fields p = some f → SourceText f.comment ∧ SourceText f.name ∧ f.type.Legible
  embeds : ∀ p e, h.embeds p = some e → SourceText e.comment ∧ e.type.Legible
  methods : ∀ p m, h.methods p = some m → SourceText m.comment ∧ SourceText m.name ∧ m.signature.Legible
  funcs : ∀ p f, h.funcs p = some f → SourceText f.comment ∧ SourceText f.name ∧ f.signature.Legible ∧
    ∀ r, f.receiver = some r → SourceText r.name ∧ SourceText r.type
  args : ∀ p l, h.args p = some l → ∀ a ∈ l, a.Legible

/-- The names by which packages are imported are source text. -/
def Imports.Legible (i : Imports) : Prop := ∀ x ∈ i.importedPaths, SourceText (i.qualifierOf x)

/-- The format of a line is source text, and so is what fmt writes if the line uses anything else than what is
described in `Verif.Model.Fmt`. What a template writes is source text. -/
def CodeElem.Legible (env : Env) (h : Heap) : CodeElem → Prop
  | .line format p => SourceText format ∧ ∀ args, h.args p = some args →
      sprintf env.isPrint format (args.map (Arg.shown env.isPrint h)) = none → SourceText (env.fmtOther h format args)
  | .templ p => ∀ t s, h.templs p = some t → env.exec h t.templ t.data = some s → SourceText s

/-- What is needed of the environment: U+FEFF is not printed as it is, and a `String` method that fails is
reported in source text. -/
structure Env.Plain (env : Env) (h : Heap) : Prop where
  bom : env.isPrint 0xFEFF = false
  failed : ∀ a, SourceText (env.fmtOther h (b! "%v") [a]) ∧ SourceText (env.fmtOther h (b! " %v") [a])

end Gopoet
