import Verif.Spec.TypeMeaning
import Verif.Spec.UsedImports
/-!
# Specification vocabulary: Go types that can be written down, and those that gopoet writes correctly
-/

namespace Gopoet

/-- The name of what is referred to. -/
def TypeIdent.name : TypeIdent → GoString
  | .builtin n => n
  | .declared _ n => n

/-- Only type names and pointers to them can be embedded in a struct. -/
def GoType.isEmbeddable {N : Type} : GoType N → Bool
  | .name _ | .ptr (.name _) => true
  | _ => false

mutual
/-- All names are identifiers, and only type names and pointers to them are embedded. Every Go type is like that. -/
def GoType.isProper : GoType TypeIdent → Bool
  | .name n => isIdent n.name
  | .ptr e => e.isProper
  | .slice e => e.isProper
  | .array _ e => e.isProper
  | .map k e => k.isProper && e.isProper
  | .chan _ e => e.isProper
  | .func s => s.isProper
  | .struct fs => properFields fs
  | .iface es => properElems es
/-- see `GoType.isProper` -/
def GoSig.isProper : GoSig TypeIdent → Bool
  | .mk ps _ rs => properParams ps && properParams rs
/-- see `GoType.isProper` -/
def properParams : List (GoParam TypeIdent) → Bool
  | [] => true
  | .mk n t :: l => n.all isIdent && t.isProper && properParams l
/-- see `GoType.isProper` -/
def properFields : List (GoField TypeIdent) → Bool
  | [] => true
  | .mk n t _ :: l => n.all isIdent && (n.isSome || t.isEmbeddable) && t.isProper && properFields l
/-- see `GoType.isProper` -/
def properElems : List (GoElem TypeIdent) → Bool
  | [] => true
  | .embed n :: l => isIdent n.name && properElems l
  | .method n s :: l => isIdent n && s.isProper && properElems l
end

/-- A channel that can only be received from. -/
def GoType.isRecvChan {N : Type} : GoType N → Bool
  | .chan .recv _ => true
  | _ => false

mutual
/-- Somewhere in the type there is a channel, open in both directions, of channels that can only be received from, or
an interface with embedded interfaces and with methods. -/
def GoType.isAwkward {N : Type} : GoType N → Bool
  | .name _ => false
  | .ptr e => e.isAwkward
  | .slice e => e.isAwkward
  | .array _ e => e.isAwkward
  | .map k e => k.isAwkward || e.isAwkward
  | .chan d e => e.isAwkward || (d == .both && e.isRecvChan)
  | .func s => s.isAwkward
  | .struct fs => awkwardFields fs
  | .iface es => awkwardElems es || (es.any GoElem.isEmbed && es.any fun e => !e.isEmbed)
/-- see `GoType.isAwkward` -/
def GoSig.isAwkward {N : Type} : GoSig N → Bool
  | .mk ps _ rs => awkwardParams ps || awkwardParams rs
/-- see `GoType.isAwkward` -/
def awkwardParams {N : Type} : List (GoParam N) → Bool
  | [] => false
  | .mk _ t :: l => t.isAwkward || awkwardParams l
/-- see `GoType.isAwkward` -/
def awkwardFields {N : Type} : List (GoField N) → Bool
  | [] => false
  | .mk _ t _ :: l => t.isAwkward || awkwardFields l
/-- see `GoType.isAwkward` -/
def awkwardElems {N : Type} : List (GoElem N) → Bool
  | [] => false
  | .embed _ :: l => awkwardElems l
  | .method _ s :: l => s.isAwkward || awkwardElems l
end

/-- The name by which a predeclared type is written; `byte` and `rune` are preferred. -/
def preferredName (n : GoString) : GoString :=
  if n = b! "uint8" then b! "byte" else if n = b! "int32" then b! "rune" else n

/-- The bare names that are needed for a type in a file: those of predeclared types and of types of the own package. No
import statement takes one of them, and the types of the own package are declared. -/
def FileScope.Shows (sc : FileScope) (d : GoType TypeIdent) : Prop :=
  ∀ x ∈ d.typeRefs,
    match x with
    | .builtin n => ∀ p ∈ sc.imports, p.binds sc.realName ≠ preferredName n
    | .declared path n => path = sc.own → n ∈ sc.decls ∧ ∀ p ∈ sc.imports, p.binds sc.realName ≠ n

instance (sc : FileScope) (d : GoType TypeIdent) : Decidable (sc.Shows d) :=
  @List.decidableBAll _ _ (fun x => by cases x <;> dsimp only <;> infer_instance) d.typeRefs

end Gopoet
