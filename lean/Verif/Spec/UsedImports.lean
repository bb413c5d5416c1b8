import Verif.Spec.FileMeaning
import Verif.Spec.Visited
/-!
# Specification vocabulary: the names that are written in a source file
-/

namespace Gopoet

mutual
/-- The type names in a type. -/
def GoType.typeRefs {N : Type} : GoType N → List N
  | .name n => [n]
  | .ptr e => e.typeRefs
  | .slice e => e.typeRefs
  | .array _ e => e.typeRefs
  | .map k e => k.typeRefs ++ e.typeRefs
  | .chan _ e => e.typeRefs
  | .func s => s.typeRefs
  | .struct fs => typeRefsFields fs
  | .iface es => typeRefsElems es
/-- see `GoType.typeRefs` -/
def GoSig.typeRefs {N : Type} : GoSig N → List N
  | .mk ps _ rs => typeRefsParams ps ++ typeRefsParams rs
/-- see `GoType.typeRefs` -/
def typeRefsParams {N : Type} : List (GoParam N) → List N
  | [] => []
  | .mk _ t :: l => t.typeRefs ++ typeRefsParams l
/-- see `GoType.typeRefs` -/
def typeRefsFields {N : Type} : List (GoField N) → List N
  | [] => []
  | .mk _ t _ :: l => t.typeRefs ++ typeRefsFields l
/-- see `GoType.typeRefs` -/
def typeRefsElems {N : Type} : List (GoElem N) → List N
  | [] => []
  | .embed n :: l => n :: typeRefsElems l
  | .method _ s :: l => s.typeRefs ++ typeRefsElems l
end

/-- The type names in declared constants or variables. -/
def ValueSyn.typeRefs (v : ValueSyn) : List SynName :=
  match v.type with
  | none => []
  | some t => t.typeRefs

/-- The type names in a declaration. (Those in function bodies and initialisers do not count.) -/
def DeclSyn.typeRefs : DeclSyn → List SynName
  | .type (.single d) => d.type.typeRefs
  | .type (.group ds) => ds.flatMap (·.type.typeRefs)
  | .value _ v => v.typeRefs
  | .values _ vs => vs.flatMap ValueSyn.typeRefs
  | .func ⟨r, _, s⟩ _ => typeRefsParams r.toList ++ s.typeRefs

/-- The declarations that are referred to in a declaration. -/
def DeclMeaning.typeRefs : DeclMeaning → List TypeIdent
  | .types ts => ts.flatMap (·.2.2.typeRefs)
  | .values _ vs => vs.flatMap fun v =>
    match v.2 with
    | none => []
    | some t => t.typeRefs
  | .func r _ s => typeRefsParams r.toList ++ s.typeRefs

/-- Some type in the source file is written with the name that the import binds. -/
def ImportSyn.UsedIn (realName : GoString → GoString) (s : ImportSyn) (src : SourceFile) : Prop :=
  ∃ d ∈ src.decls, ∃ n, (some (s.spec.binds realName), n) ∈ d.typeRefs

/-- The line or template is in the code of the element. -/
inductive FileElem.HasCode (h : Heap) : FileElem → CodeElem → Prop
  | init {p d q c b cb x} : h.valueDecls p = some d → q ∈ d.specs → h.values q = some c →
      c.init = some b → h.blocks b = some cb → x ∈ cb → HasCode h (.values p) x
  | func {p f x} : h.funcs p = some f → x ∈ f.code → HasCode h (.func p) x

end Gopoet
