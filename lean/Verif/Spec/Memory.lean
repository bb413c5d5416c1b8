import Verif.Model.Memory
/-!
# What it means that values in memory are trees, and that memory is left alone
-/

namespace Gopoet

/-- Nothing that exists in `m` was changed on the way to `m'`: all addresses that are in use in `m`
have the same contents in `m'`, and all stores went to addresses that were free in `m`. -/
def Mem.Untouched (m m' : Mem) : Prop :=
  m.next ≤ m'.next ∧ (∀ p < m.next, m'.cells p = m.cells p) ∧
    ∃ l, m'.stores = l ++ m.stores ∧ ∀ p ∈ l, m.next ≤ p

/-- A part of memory. -/
abbrev Part := Nat → Option Cell

/-- `c` is `c'` or, in case of an array, its first elements. -/
def Cell.Le (c c' : Cell) : Prop := c' = c ∨ ∃ l r, c = .array l ∧ c' = .array (l ++ r)

/-- `h` is a part of `h'`; of the arrays it may have the first elements only. -/
def Part.Le (h h' : Part) : Prop := ∀ p c, h p = some c → ∃ c', h' p = some c' ∧ c.Le c'

/-- The elements of a slice. -/
def Part.elems (h : Part) (s : Slice) : Option (List Elem) :=
  if s.len = 0 then some []
  else match h s.arr with
  | some (.array l) =>
    if s.off + s.len ≤ l.length then some ((l.drop s.off).take s.len) else none
  | _ => none

/-- The elements are the given symbols. -/
def Part.Syms : List Symbol → List Elem → Prop
  | [], [] => True
  | s :: l, .sym s' :: l' => s' = s ∧ Part.Syms l l'
  | _, _ => False

mutual
/-- In the part `h` of memory, `v` is the type `t`. -/
def Part.Type (h : Part) : TypeName → MType → Prop
  | .nil, .nil => True
  | .basic k, .basic k' => k' = k
  | .named s, .named p => h p = some (.named s)
  | .ptr t, .ptr v => h.Type t v
  | .slice t, .slice v => h.Type t v
  | .array t n, .array v n' => n' = n ∧ h.Type t v
  | .map t k, .map v w => h.Type t v ∧ h.Type k w
  | .chan t d, .chan v d' => d' = d ∧ h.Type t v
  | .func sig, .func p => ∃ s, h p = some (.sig s) ∧ h.Sig sig s
  | .struct fields, .struct p => ∃ s l, h p = some (.struct s) ∧ h.elems s = some l ∧ h.Fields fields l
  | .interface methods embeds, .interface p =>
    ∃ ms es l l', h p = some (.interface ms es) ∧ h.elems ms = some l ∧ h.Methods methods l ∧
      h.elems es = some l' ∧ Part.Syms embeds l'
  | _, _ => False
/-- see `Part.Type` -/
def Part.Sig (h : Part) : Signature → MSig → Prop
  | ⟨args, results, v⟩, s => s.isVariadic = v ∧
    ∃ l l', h.elems s.args = some l ∧ h.Args args l ∧ h.elems s.results = some l' ∧ h.Args results l'
/-- see `Part.Type` -/
def Part.Args (h : Part) : List ArgType → List Elem → Prop
  | [], [] => True
  | ⟨n, t⟩ :: l, .arg n' v :: l' => n' = n ∧ h.Type t v ∧ h.Args l l'
  | _, _ => False
/-- see `Part.Type` -/
def Part.Fields (h : Part) : List FieldType → List Elem → Prop
  | [], [] => True
  | ⟨n, t, tag⟩ :: l, .field n' v tag' :: l' => n' = n ∧ tag' = tag ∧ h.Type t v ∧ h.Fields l l'
  | _, _ => False
/-- see `Part.Type` -/
def Part.Methods (h : Part) : List MethodType → List Elem → Prop
  | [], [] => True
  | ⟨n, sig⟩ :: l, .method n' s :: l' => n' = n ∧ h.Sig sig s ∧ h.Methods l l'
  | _, _ => False
end

/-- Memory in which only addresses below `next` are in use. -/
def Mem.Good (m : Mem) : Prop := ∀ p, m.next ≤ p → m.cells p = none

/-- In memory `m`, `v` is the type `t`. -/
def Mem.IsType (m : Mem) (t : TypeName) (v : MType) : Prop := Part.Type m.cells t v

/-- In memory `m`, the signature `sig` is at `p`. -/
def Mem.IsSig (m : Mem) (sig : Signature) (p : Nat) : Prop :=
  ∃ s, m.cells p = some (.sig s) ∧ Part.Sig m.cells sig s

end Gopoet
