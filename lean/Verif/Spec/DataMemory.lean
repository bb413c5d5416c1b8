import Verif.Model.DataMemory
import Verif.Spec.Memory
import Verif.Spec.Template
/-!
# What it means that template data in memory is a tree
-/

namespace Gopoet

/-- What a pointer points to. -/
def Part.dataAt (h : Part) (a : Nat) (path : List Nat) : Option DVal :=
  match h a with
  | some c => c.at path
  | none => none

/-- `w` is the part of `v` that one gets to by the fields of structs and the elements of arrays with the given
numbers. -/
inductive DVal.HasPart : DVal → List Nat → DVal → Prop
  | whole (v : DVal) : HasPart v [] v
  | field {fs : List (Bool × DVal)} {k : Nat} {ks : List Nat} {e : Bool} {v w : DVal} :
      fs[k]? = some (e, v) → HasPart v ks w → HasPart (.struct fs) (k :: ks) w
  | elem {vs : List DVal} {k : Nat} {ks : List Nat} {v w : DVal} :
      vs[k]? = some v → HasPart v ks w → HasPart (.array vs) (k :: ks) w

/-- The data `w` is at the place which the address and the path are: it is in a variable that holds data, it is an
element (or a part of one) of a slice's array, or it is a signature. -/
def Mem.HasData (m : Mem) (a : Nat) (path : List Nat) (w : DVal) : Prop :=
  (∃ v, m.cells a = some (.data v) ∧ v.HasPart path w) ∨
  (∃ l k ks v, m.cells a = some (.array l) ∧ path = k :: ks ∧ l[k]? = some (.data v) ∧ v.HasPart ks w) ∨
  (∃ s, m.cells a = some (.sig s) ∧ path = [] ∧ w = .signature s)

/-- Go's `==` on keys of a map: pointers are the same if they point to the same place, types if they are at the same
address. (Flags of fields and which references an interface accepts belong to the type of the key.) -/
inductive DVal.SameKey : DVal → DVal → Prop
  | scalar (n : Nat) : SameKey (.scalar n) (.scalar n)
  | package (p : Package) : SameKey (.package p) (.package p)
  | symbol (s : Symbol) : SameKey (.symbol s) (.symbol s)
  | mref (m : MethodReference) : SameKey (.mref m) (.mref m)
  | embed (e : InterfaceEmbed) : SameKey (.embed e) (.embed e)
  | typeName (t : MType) : SameKey (.typeName t) (.typeName t)
  | reflectType (a : Nat) (t t' : RT) : SameKey (.reflectType a t) (.reflectType a t')
  | goType (a : Nat) (t t' : GT) : SameKey (.goType a t) (.goType a t')
  | goObject (a : Nat) (o o' : TypesObject) : SameKey (.goObject a o) (.goObject a o')
  | goPackage (a : Nat) (p p' : TypesPackage) : SameKey (.goPackage a p) (.goPackage a p')
  | ptr (a : Nat) (path : List Nat) : SameKey (.ptr a path) (.ptr a path)
  | iface (acc acc' : Accepts) {v w : DVal} : SameKey v w → SameKey (.iface acc v) (.iface acc' w)
  | struct {fs gs : List (Bool × DVal)} : fs.length = gs.length →
      (∀ (k : Nat) (x y : Bool × DVal), fs[k]? = some x → gs[k]? = some y → SameKey x.2 y.2) →
      SameKey (.struct fs) (.struct gs)
  | array {vs ws : List DVal} : vs.length = ws.length →
      (∀ (k : Nat) (v w : DVal), vs[k]? = some v → ws[k]? = some w → SameKey v w) →
      SameKey (.array vs) (.array ws)

/-- The keys of a map differ. -/
def KeysDiffer (l : List (DVal × DVal)) : Prop := l.Pairwise fun e e' => ¬ e.1.SameKey e'.1

mutual
/-- In the part `h` of memory, `v` is the data `t`. Different places in `t` may be the same memory. -/
def Part.Data (h : Part) : TVal → DVal → Prop
  | .scalar n, .scalar n' => n' = n
  | .package p, .package p' => p' = p
  | .symbol s, .symbol s' => s' = s
  | .mref m, .mref m' => m' = m
  | .signature sig, .signature s => h.Sig sig s
  | .spec r, .spec r' => r' = r
  | .specCopy r n, .specCopy r' n' => r' = r ∧ n' = n
  | .embed e, .embed e' => e' = e
  | .method m, .method m' =>
    m'.comment = m.comment ∧ m'.name = m.name ∧ m'.parent = m.parent ∧ h.Sig m.signature m'.sig
  | .imports, .imports => True
  | .typeName t, .typeName v => h.Type t v
  | .reflectType t, .reflectType _ t' => t' = t
  | .goType t, .goType _ t' => t' = t
  | .goObject o, .goObject _ o' => o' = o
  | .goPackage p, .goPackage _ p' => p' = p
  | .iface acc t, .iface acc' v => acc' = acc ∧ t.isIface = false ∧ h.Data t v
  | .ptr t, .ptr a path => ∃ v, h.dataAt a path = some v ∧ h.Data t v
  | .struct fs, .struct fs' => h.DataFields fs fs'
  | .array vs, .array vs' => h.DataElems vs vs'
  | .slice vs, .slice s => ∃ l, h.elems s = some (l.map .data) ∧ h.DataElems vs l
  | .map es, .map a => ∃ l, h a = some (.map l) ∧ h.DataEntries es l ∧ KeysDiffer l
  | _, _ => False
/-- see `Part.Data` -/
def Part.DataFields (h : Part) : List (Bool × TVal) → List (Bool × DVal) → Prop
  | [], [] => True
  | (e, t) :: l, (e', v) :: l' => e' = e ∧ h.Data t v ∧ h.DataFields l l'
  | _, _ => False
/-- see `Part.Data` -/
def Part.DataElems (h : Part) : List TVal → List DVal → Prop
  | [], [] => True
  | t :: l, v :: l' => h.Data t v ∧ h.DataElems l l'
  | _, _ => False
/-- see `Part.Data` -/
def Part.DataEntries (h : Part) : List (TVal × TVal) → List (DVal × DVal) → Prop
  | [], [] => True
  | (k, t) :: l, (k', v) :: l' => h.Data k k' ∧ h.Data t v ∧ h.DataEntries l l'
  | _, _ => False
end

/-- In memory `m`, `v` is the data `t`. -/
def Mem.IsData (m : Mem) (t : TVal) (v : DVal) : Prop := Part.Data m.cells t v

mutual
/-- A key of a map that contains no pointers and no types: whether it equals another one does not depend on
addresses. -/
def TVal.valueKey : TVal → Bool
  | .scalar _ | .package _ | .symbol _ | .mref _ | .embed _ => true
  | .iface _ v => v.valueKey
  | .struct fs => valueKeyFields fs
  | .array vs => valueKeyElems vs
  | _ => false
/-- see `TVal.valueKey` -/
def valueKeyFields : List (Bool × TVal) → Bool
  | [] => true
  | (_, v) :: fs => v.valueKey && valueKeyFields fs
/-- see `TVal.valueKey` -/
def valueKeyElems : List TVal → Bool
  | [] => true
  | v :: vs => v.valueKey && valueKeyElems vs
end

/-- A key of a map that is a pointer or a type (of gopoet, reflect or go/types) or an object or package of go/types,
possibly in an interface: it equals another one if they have the same address. -/
def TVal.identityKey : TVal → Bool
  | .iface _ v => v.identityKey
  | .ptr _ | .typeName _ | .reflectType _ | .goType _ | .goObject _ | .goPackage _ => true
  | _ => false

mutual
/-- No key of a map in the data is a struct or an array that contains pointers or types. (If such a key contains
references, too, it can happen that it becomes equal to another key. Trees cannot tell that, since they do not know
which pointers are the same.) -/
def TVal.simpleKeys : TVal → Bool
  | .iface _ v => v.simpleKeys
  | .ptr v => v.simpleKeys
  | .struct fs => simpleKeysFields fs
  | .array vs => simpleKeysElems vs
  | .slice vs => simpleKeysElems vs
  | .map es => simpleKeysEntries es
  | _ => true
/-- see `TVal.simpleKeys` -/
def simpleKeysFields : List (Bool × TVal) → Bool
  | [] => true
  | (_, v) :: fs => v.simpleKeys && simpleKeysFields fs
/-- see `TVal.simpleKeys` -/
def simpleKeysElems : List TVal → Bool
  | [] => true
  | v :: vs => v.simpleKeys && simpleKeysElems vs
/-- see `TVal.simpleKeys` -/
def simpleKeysEntries : List (TVal × TVal) → Bool
  | [] => true
  | (k, v) :: es => (k.valueKey || k.identityKey) && k.simpleKeys && v.simpleKeys && simpleKeysEntries es
end

end Gopoet
