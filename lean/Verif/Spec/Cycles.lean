import Verif.Spec.DataMemory
import Mathlib.Logic.Relation
/-!
# What it means that data or types in memory have cycles
-/

namespace Gopoet

/-- Something that can be reached in memory: some data, a type or a signature. -/
inductive Node where
  | data (v : DVal)
  | type (t : MType)
  | sig (s : MSig)

/-- In memory `m`, the slice `s` has the element `x`. -/
inductive Mem.Item (m : Mem) (s : Slice) : Elem → Prop
  | mk {l : List Elem} {k : Nat} {x : Elem} : m.cells s.arr = some (.array l) → k < s.len →
      l[s.off + k]? = some x → m.Item s x

/-- In memory `m`, the second thing is directly in the first one. A type counts only if it is in an
interface (variables that hold types have interface types). -/
inductive Mem.Holds (m : Mem) : Node → Node → Prop
  | iface {acc : Accepts} {v : DVal} : m.Holds (.data (.iface acc v)) (.data v)
  | typeName {acc : Accepts} {t : MType} : m.Holds (.data (.iface acc (.typeName t))) (.type t)
  | ptr {a : Nat} {path : List Nat} {v : DVal} : Part.dataAt m.cells a path = some v →
      m.Holds (.data (.ptr a path)) (.data v)
  | field {fs : List (Bool × DVal)} {e : Bool} {v : DVal} : (e, v) ∈ fs → m.Holds (.data (.struct fs)) (.data v)
  | elem {vs : List DVal} {v : DVal} : v ∈ vs → m.Holds (.data (.array vs)) (.data v)
  | item {s : Slice} {v : DVal} : m.Item s (.data v) → m.Holds (.data (.slice s)) (.data v)
  | key {a : Nat} {es : List (DVal × DVal)} {k v : DVal} : m.cells a = some (.map es) → (k, v) ∈ es →
      m.Holds (.data (.map a)) (.data k)
  | value {a : Nat} {es : List (DVal × DVal)} {k v : DVal} : m.cells a = some (.map es) → (k, v) ∈ es →
      m.Holds (.data (.map a)) (.data v)
  | signature {s : MSig} : m.Holds (.data (.signature s)) (.sig s)
  | method {x : MMethod} : m.Holds (.data (.method x)) (.sig x.sig)
  | ptrElem {t : MType} : m.Holds (.type (.ptr t)) (.type t)
  | sliceElem {t : MType} : m.Holds (.type (.slice t)) (.type t)
  | arrayElem {t : MType} {n : Int} : m.Holds (.type (.array t n)) (.type t)
  | mapElem {t k : MType} : m.Holds (.type (.map t k)) (.type t)
  | mapKey {t k : MType} : m.Holds (.type (.map t k)) (.type k)
  | chanElem {t : MType} {d : ChanDir} : m.Holds (.type (.chan t d)) (.type t)
  | func {p : Nat} {s : MSig} : m.cells p = some (.sig s) → m.Holds (.type (.func p)) (.sig s)
  | fieldType {p : Nat} {s : Slice} {n tag : GoString} {t : MType} : m.cells p = some (.struct s) →
      m.Item s (.field n t tag) → m.Holds (.type (.struct p)) (.type t)
  | methodSig {p : Nat} {ms es : Slice} {n : GoString} {s : MSig} : m.cells p = some (.interface ms es) →
      m.Item ms (.method n s) → m.Holds (.type (.interface p)) (.sig s)
  | arg {s : MSig} {n : GoString} {t : MType} : m.Item s.args (.arg n t) → m.Holds (.sig s) (.type t)
  | result {s : MSig} {n : GoString} {t : MType} : m.Item s.results (.arg n t) → m.Holds (.sig s) (.type t)

/-- In memory `m`, `x` leads to a cycle: it holds, directly or indirectly, something (maybe itself) that holds
itself. -/
def Mem.Cyclic (m : Mem) (x : Node) : Prop :=
  ∃ y, Relation.ReflTransGen m.Holds x y ∧ Relation.TransGen m.Holds y y

/-- In memory `m`, `x` has the address `a` in it. -/
inductive Mem.Uses (m : Mem) : Node → Nat → Prop
  | ptr {a : Nat} {path : List Nat} : m.Uses (.data (.ptr a path)) a
  | slice {s : Slice} : s.len ≠ 0 → m.Uses (.data (.slice s)) s.arr
  | map {a : Nat} : m.Uses (.data (.map a)) a
  | named {p : Nat} : m.Uses (.type (.named p)) p
  | func {p : Nat} : m.Uses (.type (.func p)) p
  | struct {p : Nat} : m.Uses (.type (.struct p)) p
  | interface {p : Nat} : m.Uses (.type (.interface p)) p
  | fields {p : Nat} {s : Slice} : m.cells p = some (.struct s) → s.len ≠ 0 → m.Uses (.type (.struct p)) s.arr
  | methods {p : Nat} {ms es : Slice} : m.cells p = some (.interface ms es) → ms.len ≠ 0 →
      m.Uses (.type (.interface p)) ms.arr
  | args {s : MSig} : s.args.len ≠ 0 → m.Uses (.sig s) s.args.arr
  | results {s : MSig} : s.results.len ≠ 0 → m.Uses (.sig s) s.results.arr

/-- In memory `m`, nothing that `x` leads to has an address that is free: as in Go, where no pointer dangles. -/
def Mem.Sound (m : Mem) (x : Node) : Prop :=
  ∀ y, Relation.ReflTransGen m.Holds x y → ∀ a, m.Uses y a → a < m.next

end Gopoet
