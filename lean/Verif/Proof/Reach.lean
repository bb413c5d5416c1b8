import Verif.Spec.Cycles
import Mathlib.Data.Fintype.Card
import Mathlib.Data.Set.Finite.List
/-!
# What can be reached in memory is finite
-/

namespace Gopoet

/-- The types in a type, without following pointers. -/
def MType.parts : MType → List Node
  | .ptr t => .type (.ptr t) :: t.parts
  | .slice t => .type (.slice t) :: t.parts
  | .array t n => .type (.array t n) :: t.parts
  | .map t k => .type (.map t k) :: (t.parts ++ k.parts)
  | .chan t d => .type (.chan t d) :: t.parts
  | t => [.type t]

mutual
/-- What is in some data, without following pointers. -/
def DVal.parts : DVal → List Node
  | .iface acc v => .data (.iface acc v) :: v.parts
  | .struct fs => .data (.struct fs) :: partsFields fs
  | .array vs => .data (.array vs) :: partsElems vs
  | .typeName t => .data (.typeName t) :: t.parts
  | .signature s => [.data (.signature s), .sig s]
  | .method x => [.data (.method x), .sig x.sig]
  | v => [.data v]
/-- see `DVal.parts` -/
def partsFields : List (Bool × DVal) → List Node
  | [] => []
  | (_, v) :: fs => v.parts ++ partsFields fs
/-- see `DVal.parts` -/
def partsElems : List DVal → List Node
  | [] => []
  | v :: vs => v.parts ++ partsElems vs
end

/-- What is in `x`, without following pointers. -/
def Node.parts : Node → List Node
  | .data v => v.parts
  | .type t => t.parts
  | .sig s => [.sig s]

/-- see `Node.parts` -/
def Elem.parts : Elem → List Node
  | .arg _ t => t.parts
  | .field _ t _ => t.parts
  | .method _ s => [.sig s]
  | .sym _ => []
  | .data v => v.parts

/-- see `Node.parts` -/
def Cell.parts : Cell → List Node
  | .sig s => [.sig s, .data (.signature s)]
  | .array l => l.flatMap Elem.parts
  | .data v => v.parts
  | .map es => es.flatMap fun e => e.1.parts ++ e.2.parts
  | _ => []

/-- What is at the addresses below `n`. -/
def Mem.parts (m : Mem) : Nat → List Node
  | 0 => []
  | n + 1 => (match m.cells n with
    | some c => c.parts
    | none => []) ++ m.parts n

theorem Mem.mem_parts {m : Mem} {p : Nat} {c : Cell} (hc : m.cells p = some c) {y : Node} (hy : y ∈ c.parts) :
    ∀ n, p < n → y ∈ m.parts n
  | n + 1, hp => by
    rw [Mem.parts]
    by_cases h : p = n
    · subst h
      rw [hc]
      exact List.mem_append_left _ hy
    · exact List.mem_append_right _ (m.mem_parts hc hy n (by omega))

theorem MType.self (t : MType) : .type t ∈ t.parts := by cases t <;> simp [MType.parts]
theorem DVal.self (v : DVal) : .data v ∈ v.parts := by cases v <;> simp [DVal.parts]

theorem parts_field {e : Bool} {v : DVal} : ∀ {fs : List (Bool × DVal)}, (e, v) ∈ fs → ∀ y ∈ v.parts, y ∈ partsFields fs
  | (e', v') :: fs, h, y, hy => by
    rw [partsFields]
    rcases List.mem_cons.1 h with h | h
    · cases h
      exact List.mem_append_left _ hy
    · exact List.mem_append_right _ (parts_field h y hy)

theorem parts_elem {v : DVal} : ∀ {vs : List DVal}, v ∈ vs → ∀ y ∈ v.parts, y ∈ partsElems vs
  | v' :: vs, h, y, hy => by
    rw [partsElems]
    rcases List.mem_cons.1 h with h | h
    · cases h
      exact List.mem_append_left _ hy
    · exact List.mem_append_right _ (parts_elem h y hy)

/-- The parts of a part of data are parts. -/
theorem DVal.parts_at : ∀ (path : List Nat) (v w : DVal), v.at path = some w → ∀ y ∈ w.parts, y ∈ v.parts
  | [], v, w, h, y, hy => by
    have : some v = some w := by cases v <;> exact h
    cases this
    exact hy
  | k :: ks, .struct fs, w, h, y, hy => by
    rw [DVal.at] at h
    split at h
    · rename_i e v hv
      rw [DVal.parts]
      exact List.mem_cons_of_mem _ (parts_field (List.mem_of_getElem? hv) y (DVal.parts_at ks v w h y hy))
    · cases h
  | k :: ks, .array vs, w, h, y, hy => by
    rw [DVal.at] at h
    split at h
    · rename_i v hv
      rw [DVal.parts]
      exact List.mem_cons_of_mem _ (parts_elem (List.mem_of_getElem? hv) y (DVal.parts_at ks v w h y hy))
    · cases h
  | _ :: _, .scalar _, _, h, _, _ | _ :: _, .package _, _, h, _, _ | _ :: _, .symbol _, _, h, _, _
  | _ :: _, .mref _, _, h, _, _ | _ :: _, .signature _, _, h, _, _ | _ :: _, .spec _, _, h, _, _
  | _ :: _, .specCopy _ _, _, h, _, _ | _ :: _, .embed _, _, h, _, _ | _ :: _, .method _, _, h, _, _
  | _ :: _, .imports, _, h, _, _ | _ :: _, .typeName _, _, h, _, _ | _ :: _, .reflectType _ _, _, h, _, _
  | _ :: _, .goType _ _, _, h, _, _ | _ :: _, .goObject _ _, _, h, _, _ | _ :: _, .goPackage _ _, _, h, _, _
  | _ :: _, .iface _ _, _, h, _, _ | _ :: _, .ptr _ _, _, h, _, _ | _ :: _, .slice _, _, h, _, _
  | _ :: _, .map _, _, h, _, _ => by simp [DVal.at] at h

theorem Cell.parts_at {c : Cell} {path : List Nat} {w : DVal} (h : c.at path = some w) : ∀ y ∈ w.parts, y ∈ c.parts := by
  intro y hy
  unfold Cell.at at h
  split at h
  · exact DVal.parts_at _ _ _ h y hy
  · cases h
    simpa [DVal.parts, Cell.parts, or_comm] using hy
  · split at h
    · rename_i v hv
      exact List.mem_flatMap.2 ⟨_, List.mem_of_getElem? hv, DVal.parts_at _ _ _ h y hy⟩
    · cases h
  · cases h

section
variable {m : Mem} (hg : m.Good)
include hg

theorem parts_cell {p : Nat} {c : Cell} (hc : m.cells p = some c) : ∀ y ∈ c.parts, y ∈ m.parts m.next := fun y hy => by
  refine m.mem_parts hc hy _ ?_
  by_cases h : p < m.next
  · exact h
  · rw [hg p (by omega)] at hc
    cases hc

theorem parts_item {s : Slice} {x : Elem} (hx : m.Item s x) : ∀ y ∈ x.parts, y ∈ m.parts m.next := fun y hy => by
  obtain ⟨h1, -, h3⟩ := hx
  exact parts_cell hg h1 y (List.mem_flatMap.2 ⟨_, List.mem_of_getElem? h3, hy⟩)

/-- What is directly in `x` is in it without following pointers, or somewhere in memory. -/
theorem parts_holds {x y : Node} (h : m.Holds x y) : ∀ z ∈ y.parts, z ∈ x.parts ∨ z ∈ m.parts m.next := by
  intro z hz
  cases h with
  | iface => exact .inl (List.mem_cons_of_mem _ hz)
  | typeName => exact .inl (List.mem_cons_of_mem _ (List.mem_cons_of_mem _ hz))
  | ptr h =>
    unfold Part.dataAt at h
    split at h
    · rename_i c hc
      exact .inr (parts_cell hg hc z (Cell.parts_at h z hz))
    · cases h
  | field h => exact .inl (List.mem_cons_of_mem _ (parts_field h z hz))
  | elem h => exact .inl (List.mem_cons_of_mem _ (parts_elem h z hz))
  | item h => exact .inr (parts_item hg h z hz)
  | key h1 h2 => exact .inr (parts_cell hg h1 z (List.mem_flatMap.2 ⟨_, h2, List.mem_append_left _ hz⟩))
  | value h1 h2 => exact .inr (parts_cell hg h1 z (List.mem_flatMap.2 ⟨_, h2, List.mem_append_right _ hz⟩))
  | signature => exact .inl (List.mem_cons_of_mem _ hz)
  | method => exact .inl (List.mem_cons_of_mem _ hz)
  | ptrElem => exact .inl (List.mem_cons_of_mem _ hz)
  | sliceElem => exact .inl (List.mem_cons_of_mem _ hz)
  | arrayElem => exact .inl (List.mem_cons_of_mem _ hz)
  | mapElem => exact .inl (List.mem_cons_of_mem _ (List.mem_append_left _ hz))
  | mapKey => exact .inl (List.mem_cons_of_mem _ (List.mem_append_right _ hz))
  | chanElem => exact .inl (List.mem_cons_of_mem _ hz)
  | func h => exact .inr (parts_cell hg h z (List.mem_cons.2 (.inl (List.mem_singleton.1 hz))))
  | fieldType h1 h2 => exact .inr (parts_item hg h2 z hz)
  | methodSig h1 h2 => exact .inr (parts_item hg h2 z hz)
  | arg h => exact .inr (parts_item hg h z hz)
  | result h => exact .inr (parts_item hg h z hz)

omit hg in
theorem Node.self (x : Node) : x ∈ x.parts := by
  cases x with
  | data v => exact v.self
  | type t => exact t.self
  | sig s => exact List.mem_singleton.2 rfl

/-- There are finitely many things that `x` leads to. -/
theorem reach_finite (x : Node) : ∃ l : List Node, ∀ y, Relation.ReflTransGen m.Holds x y → y ∈ l := by
  refine ⟨x.parts ++ m.parts m.next, fun y hy => ?_⟩
  have : ∀ z ∈ y.parts, z ∈ x.parts ++ m.parts m.next := by
    induction hy with
    | refl => exact fun z hz => List.mem_append_left _ hz
    | tail _ h ih =>
      intro z hz
      rcases parts_holds hg h z hz with h | h
      · exact ih z h
      · exact List.mem_append_right _ h
  exact this y y.self

/-- Without cycles, everything is reached. -/
theorem acc_of_not_cyclic {x : Node} (hc : ¬ m.Cyclic x) : Acc (fun y x => m.Holds x y) x := by
  obtain ⟨l, hl⟩ := reach_finite hg x
  let S : Type := {y // Relation.ReflTransGen m.Holds x y}
  have hfin : Finite S := ((List.finite_toSet l).subset (t := {y | Relation.ReflTransGen m.Holds x y})
    fun y hy => hl y hy).to_subtype
  let r : S → S → Prop := fun a b => Relation.TransGen m.Holds b.1 a.1
  have : IsTrans S r := ⟨fun a b c h1 h2 => h2.trans h1⟩
  have : Std.Irrefl r := ⟨fun a h => hc ⟨a.1, a.2, h⟩⟩
  have wf : WellFounded r := Finite.wellFounded_of_trans_of_irrefl r
  have key : ∀ a : S, Acc (fun y x => m.Holds x y) a.1 := fun a => by
    induction a using wf.induction with
    | _ a ih => exact ⟨_, fun y hy => ih ⟨y, a.2.tail hy⟩ (.single hy)⟩
  exact key ⟨x, .refl⟩

end

end Gopoet
