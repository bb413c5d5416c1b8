import Verif.Spec.TemplateText
import Verif.Props.Code
import Verif.Props.Copyable
/-! Templates: what the values are, and are shown as, after qualification. -/

namespace Gopoet
open Imports

/-! ### Paths -/

theorem indirect_requalify (h : Heap) (n : GoString → GoString) : ∀ (v : TVal) (a : Bool) {a' : Bool} {w : TVal},
    v.indirect a = (a', w) → w.isConv = false → (v.requalify h n).indirect a = (a', w.requalify h n)
  | .ptr v, a, a', w, hi, hw => by
    rw [TVal.indirect] at hi
    rw [TVal.requalify, TVal.indirect]
    exact indirect_requalify h n v true hi hw
  | .iface acc v, a, a', w, hi, hw => by
    rw [TVal.indirect] at hi
    cases hc : v.isConv with
    | true =>
      cases v <;> simp only [TVal.isConv, Bool.false_eq_true] at hc <;>
        (rw [TVal.indirect] at hi
         · simp only [Prod.mk.injEq] at hi
           rw [← hi.2] at hw
           simp [TVal.isConv] at hw
         all_goals simp)
    | false =>
      rw [requalify_iface h n acc hc, TVal.indirect]
      exact indirect_requalify h n v false hi hw
  | .spec r, a, a', w, hi, hw => by
    rw [TVal.indirect] at hi
    · simp only [Prod.mk.injEq] at hi
      obtain ⟨rfl, rfl⟩ := hi
      rw [TVal.requalify]
      split
      · split <;> rfl
      · rfl
    all_goals simp
  | .package _, a, a', w, hi, hw | .symbol _, a, a', w, hi, hw | .mref _, a, a', w, hi, hw
  | .signature _, a, a', w, hi, hw | .specCopy _ _, a, a', w, hi, hw
  | .embed _, a, a', w, hi, hw | .method _, a, a', w, hi, hw | .map _, a, a', w, hi, hw | .slice _, a, a', w, hi, hw
  | .struct _, a, a', w, hi, hw | .array _, a, a', w, hi, hw | .scalar _, a, a', w, hi, hw | .imports, a, a', w, hi, hw
  | .typeName _, a, a', w, hi, hw | .reflectType _, a, a', w, hi, hw | .goType _, a, a', w, hi, hw
  | .goObject _, a, a', w, hi, hw | .goPackage _, a, a', w, hi, hw => by
    rw [TVal.indirect] at hi
    · simp only [Prod.mk.injEq] at hi
      obtain ⟨rfl, rfl⟩ := hi
      rw [TVal.requalify] <;> first | rfl | simp
    all_goals simp

theorem inInterfaces_requalify (h : Heap) (n : GoString → GoString) : ∀ (v : TVal) (a : Bool) {a' : Bool} {w : TVal},
    v.inInterfaces a = (a', w) → w.isConv = false → (v.requalify h n).inInterfaces a = (a', w.requalify h n)
  | .iface acc v, a, a', w, hi, hw => by
    rw [TVal.inInterfaces] at hi
    cases hc : v.isConv with
    | true =>
      cases v <;> simp only [TVal.isConv, Bool.false_eq_true] at hc <;>
        (rw [TVal.inInterfaces] at hi
         · simp only [Prod.mk.injEq] at hi
           rw [← hi.2] at hw
           simp [TVal.isConv] at hw
         all_goals simp)
    | false =>
      rw [requalify_iface h n acc hc, TVal.inInterfaces]
      exact inInterfaces_requalify h n v false hi hw
  | .spec r, a, a', w, hi, hw => by
    rw [TVal.inInterfaces] at hi
    · simp only [Prod.mk.injEq] at hi
      obtain ⟨rfl, rfl⟩ := hi
      rw [TVal.requalify]
      split
      · split <;> rfl
      · rfl
    all_goals simp
  | .ptr _, a, a', w, hi, hw
  | .package _, a, a', w, hi, hw | .symbol _, a, a', w, hi, hw | .mref _, a, a', w, hi, hw
  | .signature _, a, a', w, hi, hw | .specCopy _ _, a, a', w, hi, hw
  | .embed _, a, a', w, hi, hw | .method _, a, a', w, hi, hw | .map _, a, a', w, hi, hw | .slice _, a, a', w, hi, hw
  | .struct _, a, a', w, hi, hw | .array _, a, a', w, hi, hw | .scalar _, a, a', w, hi, hw | .imports, a, a', w, hi, hw
  | .typeName _, a, a', w, hi, hw | .reflectType _, a, a', w, hi, hw | .goType _, a, a', w, hi, hw
  | .goObject _, a, a', w, hi, hw | .goPackage _, a, a', w, hi, hw => by
    rw [TVal.inInterfaces] at hi
    · simp only [Prod.mk.injEq] at hi
      obtain ⟨rfl, rfl⟩ := hi
      rw [TVal.requalify] <;> first | rfl | simp
    all_goals simp

theorem requalifyFields_get (h : Heap) (n : GoString → GoString) : ∀ (fs : List (Bool × TVal)) (k : Nat),
    (requalifyFields h n fs)[k]? = fs[k]?.map fun x => (x.1, x.2.requalify h n)
  | [], _ => by simp [requalifyFields]
  | (e, v) :: fs, 0 => by simp [requalifyFields]
  | (e, v) :: fs, k + 1 => by simp [requalifyFields, requalifyFields_get h n fs k]

theorem requalifyElems_map (h : Heap) (n : GoString → GoString) : ∀ vs : List TVal,
    requalifyElems h n vs = vs.map (·.requalify h n)
  | [] => by simp [requalifyElems]
  | v :: vs => by simp [requalifyElems, requalifyElems_map h n vs]

theorem isKey_requalify (h : Heap) (n : GoString → GoString) (id : Nat) (k : TVal) :
    (k.requalify h n).isKey id = k.isKey id := by
  cases k with
  | iface acc v =>
    cases hc : v.isConv with
    | false =>
      rw [requalify_iface h n acc hc]
      cases v <;> first
        | (rw [TVal.requalify] <;> first | rfl | simp; done)
        | (simp [TVal.isConv] at hc; done)
        | skip
      case spec r =>
        rw [TVal.requalify]
        split
        · split <;> rfl
        · rfl
      case iface a v =>
        have : ∃ a' w, (TVal.iface a v).requalify h n = .iface a' w := by
          rw [TVal.requalify.eq_def]
          dsimp only
          split <;> (try simp only [requalifyConverted, requalifyObject]) <;> (repeat' split) <;> exact ⟨_, _, rfl⟩
        obtain ⟨a', w, hw⟩ := this
        rw [hw]; rfl
    | true =>
      cases v <;> simp only [TVal.isConv, Bool.false_eq_true] at hc <;> rw [TVal.requalify] <;>
        (try simp only [requalifyConverted, requalifyObject]) <;> (repeat' split) <;> rfl
  | spec r =>
    rw [TVal.requalify]
    split
    · split <;> rfl
    · rfl
  | _ => rw [TVal.requalify] <;> first | rfl | simp

theorem entryOf_requalify (h : Heap) (n : GoString → GoString) (id : Nat) : ∀ es : List (TVal × TVal),
    entryFor id (requalifyEntries h n es) = (entryFor id es).map (·.requalify h n)
  | [] => by simp [requalifyEntries, entryFor]
  | (k, v) :: es => by
    simp only [requalifyEntries, entryFor, isKey_requalify, entryOf_requalify h n id es]
    split <;> simp

theorem next_requalify (h : Heap) (n : GoString → GoString) {s : TStep} {a a' : Bool} {v w : TVal}
    (hs : s.next a v = some (a', w)) : s.next a (v.requalify h n) = some (a', w.requalify h n) := by
  cases s with
  | field k =>
    simp only [TStep.next] at hs ⊢
    rcases hi : v.indirect a with ⟨b, u⟩
    rw [hi] at hs
    cases u <;> simp only [reduceCtorEq] at hs
    rename_i fs
    rw [indirect_requalify h n v a hi rfl, TVal.requalify]
    simp only [requalifyFields_get]
    cases hf : fs[k]? with
    | none => simp [hf] at hs
    | some x =>
      obtain ⟨e, x⟩ := x
      cases e <;> simp [hf] at hs
      simp [hs]
  | elem k =>
    simp only [TStep.next] at hs ⊢
    rcases hi : v.inInterfaces a with ⟨b, u⟩
    rw [hi] at hs
    cases u <;> simp only [reduceCtorEq] at hs
    all_goals
      rename_i vs
      rw [inInterfaces_requalify h n v a hi rfl, TVal.requalify]
      simp only [requalifyElems_map, List.getElem?_map]
      cases hf : vs[k]? with
      | none => simp [hf] at hs
      | some x =>
        simp [hf] at hs
        simp [hs]
  | key id =>
    simp only [TStep.next] at hs ⊢
    rcases hi : v.indirect a with ⟨b, u⟩
    rw [hi] at hs
    cases u <;> simp only [reduceCtorEq] at hs
    rename_i es
    rw [indirect_requalify h n v a hi rfl, TVal.requalify]
    simp only [entryOf_requalify]
    cases hf : entryFor id es with
    | none => simp [hf] at hs
    | some x =>
      simp [hf] at hs
      simp [hs]

theorem follow_requalify (h : Heap) (n : GoString → GoString) : ∀ (path : List TStep) {a a' : Bool} {v w : TVal},
    v.follow a path = some (a', w) → (v.requalify h n).follow a path = some (a', w.requalify h n)
  | [], a, a', v, w, hf => by
    simp only [TVal.follow, Option.some.injEq, Prod.mk.injEq] at hf ⊢
    exact ⟨hf.1, by rw [hf.2]⟩
  | s :: path, a, a', v, w, hf => by
    simp only [TVal.follow, Option.bind_eq_some_iff] at hf ⊢
    obtain ⟨⟨b, u⟩, h1, h2⟩ := hf
    exact ⟨_, next_requalify h n h1, follow_requalify h n path h2⟩

theorem keyId_requalify (h : Heap) (n : GoString → GoString) (k : TVal) : (k.requalify h n).keyId = k.keyId := by
  have : ∀ v : TVal, ∀ a, v.keyId = some a ↔ v.isKey a = true := by
    intro v a
    unfold TVal.keyId TVal.isKey
    split <;> simp
  refine Option.ext fun a => ?_
  rw [this, this, isKey_requalify]

theorem requalifyEntries_map (h : Heap) (n : GoString → GoString) : ∀ es : List (TVal × TVal),
    requalifyEntries h n es = es.map fun e => (e.1.requalify h n, e.2.requalify h n)
  | [] => by simp [requalifyEntries]
  | (k, v) :: es => by simp [requalifyEntries, requalifyEntries_map h n es]

theorem keyedEntries_requalify (h : Heap) (n : GoString → GoString) : ∀ es : List (TVal × TVal),
    keyedEntries (requalifyEntries h n es) =
      (keyedEntries es).map fun l => l.map fun x => (x.1, (x.2.1.requalify h n, x.2.2.requalify h n))
  | [] => by simp [requalifyEntries, keyedEntries]
  | (k, v) :: es => by
    rw [requalifyEntries, keyedEntries, keyedEntries, keyedEntries_requalify h n es]
    dsimp only
    rw [keyId_requalify]
    cases k.keyId <;> cases keyedEntries es <;> rfl

theorem scalar_requalify (h : Heap) (n : GoString → GoString) (a : Nat) : (TVal.scalar a).requalify h n = .scalar a := by
  rw [TVal.requalify] <;> simp

theorem numberedFrom_requalify (sc : Scalars) (h : Heap) (n : GoString → GoString) : ∀ (vs : List TVal) (k : Nat),
    numberedFrom sc k (vs.map (·.requalify h n)) =
      (numberedFrom sc k vs).map fun e => (e.1.requalify h n, e.2.requalify h n)
  | [], _ => rfl
  | v :: vs, k => by
    rw [List.map_cons, numberedFrom, numberedFrom, numberedFrom_requalify sc h n vs, List.map_cons, scalar_requalify]

theorem sortByKey_map {α β : Type} (sc : Scalars) (f : Nat × α → β) (l : List (Nat × α)) :
    sortByKey sc (l.map fun x => (x.1, f x)) = (sortByKey sc l).map fun x => (x.1, f x) := by
  have hi : ∀ (x : Nat × α) (l : List (Nat × α)),
      insertByKey sc (x.1, f x) (l.map fun x => (x.1, f x)) = (insertByKey sc x l).map fun x => (x.1, f x) := by
    intro x l
    induction l with
    | nil => rfl
    | cons y l ih =>
      rw [List.map_cons, insertByKey, insertByKey, ih]
      split <;> simp
  induction l with
  | nil => rfl
  | cons x l ih => rw [List.map_cons, sortByKey, sortByKey, ih, hi]

theorem sortByKey_perm {α : Type} (sc : Scalars) (l : List (Nat × α)) : (sortByKey sc l).Perm l := by
  have hi : ∀ (x : Nat × α) (l : List (Nat × α)), (insertByKey sc x l).Perm (x :: l) := by
    intro x l
    induction l with
    | nil => exact .refl _
    | cons y l ih =>
      rw [insertByKey]
      split
      · exact .refl _
      · exact (ih.cons y).trans (.swap x y l)
  induction l with
  | nil => exact .refl _
  | cons x l ih => exact (hi x _).trans (ih.cons x)

theorem sortByKey_pairwise {α : Type} {sc : Scalars} (htr : ∀ a b c, sc.le a b = true → sc.le b c = true → sc.le a c = true)
    (hto : ∀ a b, sc.le a b = true ∨ sc.le b a = true) (l : List (Nat × α)) :
    (sortByKey sc l).Pairwise fun x y => sc.le x.1 y.1 = true := by
  have hm : ∀ (x : Nat × α) (l : List (Nat × α)) (z), z ∈ insertByKey sc x l → z = x ∨ z ∈ l := by
    intro x l z hz
    induction l with
    | nil => simpa [insertByKey] using hz
    | cons y l ih =>
      rw [insertByKey] at hz
      split at hz
      · simpa using hz
      · rcases List.mem_cons.1 hz with rfl | hz
        · simp
        · rcases ih hz with h | h <;> simp [h]
  have hi : ∀ (x : Nat × α) (l : List (Nat × α)), l.Pairwise (fun x y => sc.le x.1 y.1 = true) →
      (insertByKey sc x l).Pairwise fun x y => sc.le x.1 y.1 = true := by
    intro x l hl
    induction l with
    | nil => simp [insertByKey]
    | cons y l ih =>
      rw [List.pairwise_cons] at hl
      rw [insertByKey]
      split
      · rename_i hxy
        refine List.pairwise_cons.2 ⟨fun z hz => ?_, List.pairwise_cons.2 hl⟩
        rcases List.mem_cons.1 hz with rfl | hz
        · exact hxy
        · exact htr _ _ _ hxy (hl.1 z hz)
      · rename_i hxy
        refine List.pairwise_cons.2 ⟨fun z hz => ?_, ih hl.2⟩
        rcases hm x l z hz with rfl | hz
        · exact (hto y.1 z.1).resolve_right hxy
        · exact hl.1 z hz
  induction l with
  | nil => exact .nil
  | cons x l ih => exact hi x _ ih

theorem items_requalify (sc : Scalars) (h : Heap) (n : GoString → GoString) {a a' : Bool} {v : TVal} {vs : List (TVal × TVal)}
    (hs : v.items sc a = some (a', vs)) :
    (v.requalify h n).items sc a = some (a', vs.map fun e => (e.1.requalify h n, e.2.requalify h n)) := by
  simp only [TVal.items] at hs ⊢
  rcases hi : v.indirect a with ⟨b, u⟩
  rw [hi] at hs
  cases u <;> simp only [reduceCtorEq, Option.some.injEq, Prod.mk.injEq, Option.map_eq_some_iff] at hs
  case map es =>
    obtain ⟨l, h1, h2, h3⟩ := hs
    rw [indirect_requalify h n v a hi rfl, TVal.requalify]
    simp only [keyedEntries_requalify, h1, Option.map_some, h2, Option.some.injEq, Prod.mk.injEq, true_and]
    rw [← h3, List.map_map, sortByKey_map sc (fun x : Nat × (TVal × TVal) => (x.2.1.requalify h n, x.2.2.requalify h n)), List.map_map]
    rfl
  all_goals
    rw [indirect_requalify h n v a hi rfl, TVal.requalify]
    simp [← hs, requalifyElems_map, numberedFrom_requalify]

theorem size_requalify (h : Heap) (n : GoString → GoString) {v : TVal} {k : Nat} (hs : v.size = some k) :
    (v.requalify h n).size = some k := by
  rw [TVal.size] at hs ⊢
  rcases hi : v.indirect false with ⟨b, u⟩
  rw [hi] at hs
  cases u <;> simp only [reduceCtorEq, Option.some.injEq] at hs
  all_goals
    rw [indirect_requalify h n v false hi rfl, TVal.requalify]
    simp [← hs, requalifyElems_map, requalifyEntries_map]

theorem truth_iface (sc : Scalars) (acc : Accepts) (v : TVal) : (TVal.iface acc v).truth sc = v.truth sc := by
  rw [TVal.truth, TVal.truth, TVal.inInterfaces]

/-- Qualification does not change what is true. -/
theorem truth_requalify (sc : Scalars) (h : Heap) (n : GoString → GoString) : ∀ v : TVal,
    (v.requalify h n).truth sc = v.truth sc
  | .iface acc v => by
    cases hc : v.isConv with
    | true =>
      cases v <;> simp only [TVal.isConv, Bool.false_eq_true] at hc <;> rw [TVal.requalify]
      case goPackage g => split <;> rfl
      all_goals
        first | rw [requalifyConverted.eq_def] | rw [requalifyObject.eq_def]
        repeat' split
        all_goals rfl
    | false =>
      rw [requalify_iface h n acc hc, truth_iface, truth_iface, truth_requalify sc h n v]
  | .spec r => by
    rw [TVal.requalify]
    split
    · split <;> rfl
    · rfl
  | .slice vs => by rw [TVal.requalify]; cases vs <;> rfl
  | .array vs => by rw [TVal.requalify]; cases vs <;> rfl
  | .map es => by
    rw [TVal.requalify]
    cases es with
    | nil => rfl
    | cons e es => obtain ⟨k, v⟩ := e; rfl
  | .struct _ | .ptr _ | .package _ | .symbol _ | .mref _ | .signature _ | .specCopy _ _
  | .embed _ | .method _ | .scalar _ | .imports | .typeName _ | .reflectType _ | .goType _
  | .goObject _ | .goPackage _ => by rw [TVal.requalify] <;> first | rfl | simp

/-- The scope with all values qualified. -/
def TScope.requalify (h : Heap) (n : GoString → GoString) (σ : TScope) : TScope :=
  ⟨(σ.dot.1, σ.dot.2.requalify h n), σ.vars.map fun x => (x.1, x.2.requalify h n)⟩

theorem get_requalify (h : Heap) (n : GoString → GoString) {σ : TScope} {p : TPath} {a : Bool} {w : TVal}
    (hg : σ.get p = some (a, w)) : (σ.requalify h n).get p = some (a, w.requalify h n) := by
  rw [TScope.get, Option.bind_eq_some_iff] at hg ⊢
  obtain ⟨⟨b, v⟩, h1, h2⟩ := hg
  refine ⟨(b, v.requalify h n), ?_, follow_requalify h n _ h2⟩
  rw [TScope.requalify]
  cases hv : p.var with
  | none =>
    simp only [hv, Option.some.injEq] at h1 ⊢
    rw [h1]
  | some k =>
    simp only [hv] at h1 ⊢
    rw [List.getElem?_map, h1]; rfl

theorem equal_requalify (sc : Scalars) (h : Heap) (n : GoString → GoString) {v w : TVal} {b : Bool}
    (he : v.equal sc w = some b) : (v.requalify h n).equal sc (w.requalify h n) = some b := by
  rw [TVal.equal] at he ⊢
  rcases hv : v.inInterfaces false with ⟨x, v'⟩
  rcases hw : w.inInterfaces false with ⟨y, w'⟩
  rw [hv, hw] at he
  dsimp only at he
  split at he
  · rw [inInterfaces_requalify h n v false hv rfl, inInterfaces_requalify h n w false hw rfl, scalar_requalify,
      scalar_requalify]
    exact he
  · simp at he

theorem arg_requalify (h : Heap) (n : GoString → GoString) {σ : TScope} {a : TArg} {v : TVal}
    (hg : a.get σ = some v) : a.get (σ.requalify h n) = some (v.requalify h n) := by
  cases a with
  | path p =>
    simp only [TArg.get, Option.map_eq_some_iff] at hg ⊢
    obtain ⟨⟨b, w⟩, h1, rfl⟩ := hg
    exact ⟨_, get_requalify h n h1, rfl⟩
  | const id =>
    simp only [TArg.get, Option.some.injEq] at hg ⊢
    rw [← hg, scalar_requalify]

/-- Qualification does not change what conditions give. -/
theorem eval_requalify (sc : Scalars) (h : Heap) (n : GoString → GoString) {σ : TScope} : ∀ (c : TCond) {b : Bool},
    c.eval sc σ = some b → c.eval sc (σ.requalify h n) = some b
  | .value p, b, hb => by
    simp only [TCond.eval, Option.map_eq_some_iff] at hb ⊢
    obtain ⟨⟨a, w⟩, h1, rfl⟩ := hb
    exact ⟨_, get_requalify h n h1, truth_requalify sc h n w⟩
  | .not c, b, hb => by
    simp only [TCond.eval, Option.map_eq_some_iff] at hb ⊢
    obtain ⟨x, h1, rfl⟩ := hb
    exact ⟨_, eval_requalify sc h n c h1, rfl⟩
  | .and c d, b, hb | .or c d, b, hb => by
    simp only [TCond.eval, Option.bind_eq_some_iff, Option.map_eq_some_iff] at hb ⊢
    obtain ⟨x, h1, y, h2, rfl⟩ := hb
    exact ⟨_, eval_requalify sc h n c h1, _, eval_requalify sc h n d h2, rfl⟩
  | .eq a c, b, hb => by
    simp only [TCond.eval, Option.bind_eq_some_iff] at hb ⊢
    obtain ⟨x, h1, y, h2, h3⟩ := hb
    exact ⟨_, arg_requalify h n h1, _, arg_requalify h n h2, equal_requalify sc h n h3⟩

theorem push_requalify (h : Heap) (n : GoString → GoString) (σ : TScope) (x : Bool × TVal) :
    (σ.push x).requalify h n = (σ.requalify h n).push (x.1, x.2.requalify h n) := by
  simp [TScope.requalify, TScope.push]

/-- A part of the data. -/
def DataPart (h : Heap) (w v : TVal) : Prop :=
  (v.validTypes = true → w.validTypes = true) ∧ ∀ p ∈ w.mentions h, p ∈ v.mentions h

theorem DataPart.refl (h : Heap) (v : TVal) : DataPart h v v := ⟨id, fun _ => id⟩

theorem DataPart.trans {h : Heap} {u v w : TVal} (a : DataPart h u v) (b : DataPart h v w) : DataPart h u w :=
  ⟨fun x => a.1 (b.1 x), fun p hp => b.2 p (a.2 p hp)⟩

theorem part_ptr (h : Heap) (v : TVal) : DataPart h v (.ptr v) := by
  constructor
  · rw [TVal.validTypes]; exact id
  · intro p hp; rw [TVal.mentions]; exact hp

theorem part_iface (h : Heap) (acc : Accepts) {v : TVal} (hv : v.isConv = false) : DataPart h v (.iface acc v) := by
  constructor
  · rw [validTypes_iface acc hv]; exact id
  · intro p hp
    have : (TVal.iface acc v).mentions h = v.mentions h := by
      cases v <;> simp only [TVal.isConv, Bool.true_eq_false] at hv <;> rw [TVal.mentions] <;> simp
    rw [this]; exact hp

theorem part_indirect (h : Heap) : ∀ (v : TVal) (a : Bool) {a' : Bool} {w : TVal},
    v.indirect a = (a', w) → w.isConv = false → DataPart h w v
  | .ptr v, a, a', w, hi, hw => by
    rw [TVal.indirect] at hi
    exact (part_indirect h v true hi hw).trans (part_ptr h v)
  | .iface acc v, a, a', w, hi, hw => by
    rw [TVal.indirect] at hi
    cases hc : v.isConv with
    | true =>
      cases v <;> simp only [TVal.isConv, Bool.false_eq_true] at hc <;>
        (rw [TVal.indirect] at hi
         · simp only [Prod.mk.injEq] at hi
           rw [← hi.2] at hw
           simp [TVal.isConv] at hw
         all_goals simp)
    | false => exact (part_indirect h v false hi hw).trans (part_iface h acc hc)
  | .spec _, a, a', w, hi, hw
  | .package _, a, a', w, hi, hw | .symbol _, a, a', w, hi, hw | .mref _, a, a', w, hi, hw
  | .signature _, a, a', w, hi, hw | .specCopy _ _, a, a', w, hi, hw
  | .embed _, a, a', w, hi, hw | .method _, a, a', w, hi, hw | .map _, a, a', w, hi, hw | .slice _, a, a', w, hi, hw
  | .struct _, a, a', w, hi, hw | .array _, a, a', w, hi, hw | .scalar _, a, a', w, hi, hw | .imports, a, a', w, hi, hw
  | .typeName _, a, a', w, hi, hw | .reflectType _, a, a', w, hi, hw | .goType _, a, a', w, hi, hw
  | .goObject _, a, a', w, hi, hw | .goPackage _, a, a', w, hi, hw => by
    rw [TVal.indirect] at hi
    · simp only [Prod.mk.injEq] at hi
      rw [← hi.2]
      exact .refl _ _
    all_goals simp

theorem part_inInterfaces (h : Heap) : ∀ (v : TVal) (a : Bool) {a' : Bool} {w : TVal},
    v.inInterfaces a = (a', w) → w.isConv = false → DataPart h w v
  | .iface acc v, a, a', w, hi, hw => by
    rw [TVal.inInterfaces] at hi
    cases hc : v.isConv with
    | true =>
      cases v <;> simp only [TVal.isConv, Bool.false_eq_true] at hc <;>
        (rw [TVal.inInterfaces] at hi
         · simp only [Prod.mk.injEq] at hi
           rw [← hi.2] at hw
           simp [TVal.isConv] at hw
         all_goals simp)
    | false => exact (part_inInterfaces h v false hi hw).trans (part_iface h acc hc)
  | .ptr _, a, a', w, hi, hw | .spec _, a, a', w, hi, hw
  | .package _, a, a', w, hi, hw | .symbol _, a, a', w, hi, hw | .mref _, a, a', w, hi, hw
  | .signature _, a, a', w, hi, hw | .specCopy _ _, a, a', w, hi, hw
  | .embed _, a, a', w, hi, hw | .method _, a, a', w, hi, hw | .map _, a, a', w, hi, hw | .slice _, a, a', w, hi, hw
  | .struct _, a, a', w, hi, hw | .array _, a, a', w, hi, hw | .scalar _, a, a', w, hi, hw | .imports, a, a', w, hi, hw
  | .typeName _, a, a', w, hi, hw | .reflectType _, a, a', w, hi, hw | .goType _, a, a', w, hi, hw
  | .goObject _, a, a', w, hi, hw | .goPackage _, a, a', w, hi, hw => by
    rw [TVal.inInterfaces] at hi
    · simp only [Prod.mk.injEq] at hi
      rw [← hi.2]
      exact .refl _ _
    all_goals simp

theorem part_fields (h : Heap) : ∀ (fs : List (Bool × TVal)), ∀ x ∈ fs, DataPart h x.2 (.struct fs)
  | (e, v) :: fs, x, hx => by
    have ih := part_fields h fs
    simp only [DataPart, TVal.validTypes, TVal.mentions, validTypesFields, mentionsFields, Bool.and_eq_true,
      List.mem_append] at ih ⊢
    rcases List.mem_cons.1 hx with rfl | hx
    · exact ⟨fun h => h.1, fun p hp => .inl hp⟩
    · exact ⟨fun h => (ih x hx).1 h.2, fun p hp => .inr ((ih x hx).2 p hp)⟩

theorem part_elems (h : Heap) : ∀ (vs : List TVal), ∀ x ∈ vs, (validTypesElems vs = true → x.validTypes = true) ∧
    ∀ p ∈ x.mentions h, p ∈ mentionsElems h vs
  | v :: vs, x, hx => by
    have ih := part_elems h vs
    simp only [validTypesElems, mentionsElems, Bool.and_eq_true, List.mem_append]
    rcases List.mem_cons.1 hx with rfl | hx
    · exact ⟨fun h => h.1, fun p hp => .inl hp⟩
    · exact ⟨fun h => (ih x hx).1 h.2, fun p hp => .inr ((ih x hx).2 p hp)⟩

theorem part_array (h : Heap) {vs : List TVal} {x : TVal} (hx : x ∈ vs) : DataPart h x (.array vs) := by
  rw [DataPart, TVal.validTypes, TVal.mentions]; exact part_elems h vs x hx

theorem part_entry (h : Heap) {id : Nat} : ∀ {es : List (TVal × TVal)} {x : TVal}, entryFor id es = some x →
    DataPart h x (.map es)
  | [], x, hx => by simp [entryFor] at hx
  | (k, v) :: es, x, hx => by
    rw [entryFor] at hx
    simp only [DataPart, TVal.validTypes, TVal.mentions, validTypesEntries, mentionsEntries, Bool.and_eq_true,
      List.mem_append]
    split at hx
    · obtain rfl := Option.some.inj hx
      exact ⟨fun h => h.1.2, fun p hp => .inr (.inl hp)⟩
    · have ih := part_entry h hx
      simp only [DataPart, TVal.validTypes, TVal.mentions] at ih
      exact ⟨fun h => ih.1 h.2, fun p hp => .inr (.inr (ih.2 p hp))⟩

theorem part_value (h : Heap) : ∀ {es : List (TVal × TVal)} {e : TVal × TVal}, e ∈ es → DataPart h e.2 (.map es)
  | [], e, he => by simp at he
  | (k, v) :: es, e, he => by
    simp only [DataPart, TVal.validTypes, TVal.mentions, validTypesEntries, mentionsEntries, Bool.and_eq_true,
      List.mem_append]
    rcases List.mem_cons.1 he with rfl | he
    · exact ⟨fun h => h.1.2, fun p hp => .inr (.inl hp)⟩
    · have ih := part_value h he
      simp only [DataPart, TVal.validTypes, TVal.mentions] at ih
      exact ⟨fun h => ih.1 h.2, fun p hp => .inr (.inr (ih.2 p hp))⟩

theorem part_next (h : Heap) {s : TStep} {a a' : Bool} {v w : TVal} (hs : s.next a v = some (a', w)) : DataPart h w v := by
  cases s with
  | field k =>
    simp only [TStep.next] at hs
    rcases hi : v.indirect a with ⟨b, u⟩
    rw [hi] at hs
    cases u <;> simp only [reduceCtorEq] at hs
    rename_i fs
    refine DataPart.trans ?_ (part_indirect h v a hi rfl)
    cases hf : fs[k]? with
    | none => simp [hf] at hs
    | some x =>
      obtain ⟨e, x⟩ := x
      cases e <;> simp [hf] at hs
      rw [← hs.2]
      exact part_fields h fs (true, x) (List.mem_of_getElem? hf)
  | elem k =>
    simp only [TStep.next] at hs
    rcases hi : v.inInterfaces a with ⟨b, u⟩
    rw [hi] at hs
    cases u <;> simp only [reduceCtorEq] at hs
    all_goals
      rename_i vs
      refine DataPart.trans ?_ (part_inInterfaces h v a hi rfl)
      cases hf : vs[k]? with
      | none => simp [hf] at hs
      | some x =>
        simp [hf] at hs
        rw [← hs.2]
        exact part_array h (List.mem_of_getElem? hf)
  | key id =>
    simp only [TStep.next] at hs
    rcases hi : v.indirect a with ⟨b, u⟩
    rw [hi] at hs
    cases u <;> simp only [reduceCtorEq] at hs
    rename_i es
    refine DataPart.trans ?_ (part_indirect h v a hi rfl)
    cases hf : entryFor id es with
    | none => simp [hf] at hs
    | some x =>
      simp [hf] at hs
      rw [← hs.2]
      exact part_entry h hf

theorem part_follow (h : Heap) : ∀ (path : List TStep) {a a' : Bool} {v w : TVal},
    v.follow a path = some (a', w) → DataPart h w v
  | [], a, a', v, w, hf => by
    simp only [TVal.follow, Option.some.injEq, Prod.mk.injEq] at hf
    rw [← hf.2]; exact .refl _ _
  | s :: path, a, a', v, w, hf => by
    simp only [TVal.follow, Option.bind_eq_some_iff] at hf
    obtain ⟨⟨b, u⟩, h1, h2⟩ := hf
    exact (part_follow h path h2).trans (part_next h h1)

theorem keyedEntries_mem : ∀ {es : List (TVal × TVal)} {l : List (Nat × (TVal × TVal))}, keyedEntries es = some l →
    l.map (·.2) = es ∧ ∀ x ∈ l, x.2.1.keyId = some x.1
  | [], l, hl => by simp [keyedEntries] at hl; simp [hl]
  | e :: es, l, hl => by
    simp only [keyedEntries, Option.bind_eq_some_iff, Option.map_eq_some_iff] at hl
    obtain ⟨a, h1, l', h2, rfl⟩ := hl
    obtain ⟨h3, h4⟩ := keyedEntries_mem h2
    exact ⟨by simp [h3], List.forall_mem_cons.2 ⟨h1, h4⟩⟩

theorem numberedFrom_mem (sc : Scalars) : ∀ {vs : List TVal} {k : Nat} {e : TVal × TVal}, e ∈ numberedFrom sc k vs →
    e.2 ∈ vs ∧ ∃ m, e.1 = .scalar m
  | [], _, _, he => by simp [numberedFrom] at he
  | v :: vs, k, e, he => by
    rw [numberedFrom, List.mem_cons] at he
    rcases he with rfl | he
    · exact ⟨by simp, _, rfl⟩
    · obtain ⟨h1, h2⟩ := numberedFrom_mem sc he
      exact ⟨by simp [h1], h2⟩

/-- Numbers and strings, also in interfaces, do not mention anything. -/
theorem keyId_part (h : Heap) {k : TVal} {a : Nat} (hk : k.keyId = some a) : k.validTypes = true ∧ k.mentions h = [] := by
  unfold TVal.keyId at hk
  split at hk
  · exact ⟨by rw [TVal.validTypes] <;> simp, by rw [TVal.mentions] <;> simp⟩
  · exact ⟨by rw [TVal.validTypes, TVal.validTypes] <;> simp, by rw [TVal.mentions, TVal.mentions] <;> simp⟩
  · simp at hk

theorem part_items (sc : Scalars) (h : Heap) {a a' : Bool} {v : TVal} {e : TVal × TVal} {vs : List (TVal × TVal)}
    (hs : v.items sc a = some (a', vs)) (hw : e ∈ vs) : DataPart h e.1 v ∧ DataPart h e.2 v := by
  have scalar : ∀ {k : TVal} {m : Nat}, k.keyId = some m → DataPart h k v := fun hk => by
    obtain ⟨h1, h2⟩ := keyId_part h hk
    exact ⟨fun _ => h1, by simp [h2]⟩
  simp only [TVal.items] at hs
  rcases hi : v.indirect a with ⟨b, u⟩
  rw [hi] at hs
  cases u <;> simp only [reduceCtorEq, Option.some.injEq, Prod.mk.injEq, Option.map_eq_some_iff] at hs
  case map es =>
    obtain ⟨l, h1, -, rfl⟩ := hs
    obtain ⟨h3, h4⟩ := keyedEntries_mem h1
    obtain ⟨x, hx, rfl⟩ := List.mem_map.1 hw
    rw [(sortByKey_perm sc l).mem_iff] at hx
    refine ⟨scalar (h4 x hx), DataPart.trans ?_ (part_indirect h v a hi rfl)⟩
    have : x.2 ∈ es := by rw [← h3]; exact List.mem_map_of_mem hx
    exact part_value h this
  all_goals
    obtain ⟨-, rfl⟩ := hs
    obtain ⟨h1, m, h2⟩ := numberedFrom_mem sc hw
    refine ⟨scalar (m := m) (by rw [h2]; rfl), DataPart.trans ?_ (part_indirect h v a hi rfl)⟩
    exact part_array h h1

theorem part_get (h : Heap) {σ : TScope} {p : TPath} {a : Bool} {w : TVal} (hg : σ.get p = some (a, w)) :
    ∃ x ∈ σ.dot :: σ.vars, DataPart h w x.2 := by
  rw [TScope.get, Option.bind_eq_some_iff] at hg
  obtain ⟨x, h1, h2⟩ := hg
  refine ⟨x, ?_, part_follow h _ h2⟩
  cases hv : p.var with
  | none =>
    simp only [hv, Option.some.injEq] at h1
    simp [h1]
  | some k =>
    simp only [hv] at h1
    exact List.mem_cons_of_mem _ (List.mem_of_getElem? h1)

/-! ### Values -/

/-- The packages that a reference mentions, without that of predeclared names. -/
def Reference.mentions : Reference → List Package
  | .package p => [p]
  | .symbol s => packagesOf [s]
  | .method m => packagesOf [m.type]
  | .type t => packagesOf t.symbols

/-- The text of the reference with the given names of packages. -/
def Reference.textWith (tbl : Nat → Bool) (n : GoString → GoString) : Reference → Outcome GoString
  | .package p => .ok (n p.importPath)
  | .symbol s => .ok (s.requalify n).string
  | .method m => .ok (MethodReference.string { m with type := m.type.requalify n })
  | .type t => (t.mapSymbols (·.requalify n)).string tbl

/-- The package has a name. -/
def HasName (k : Imports) (p : Package) : Prop := p.importPath = k.pkgPath ∨ k.importsByPath.get p.importPath ≠ none

theorem covered_of_known {k : Imports} {s : Symbol} (h : ∀ p ∈ packagesOf [s], HasName k p) : Covered k s := by
  by_cases hb : s.package = ⟨[], []⟩
  · exact .inl (by simp [Symbol.isBuiltin, hb])
  · exact .inr (h s.package (by simp [packagesOf, hb]))

theorem text_eq {tbl : Nat → Bool} {k : Imports} (hi : Inv k) {r : Reference} (hk : ∀ p ∈ r.mentions, HasName k p) :
    r.text tbl k = r.textWith tbl k.qualifierOf := by
  have sym : ∀ s : Symbol, (∀ p ∈ packagesOf [s], HasName k p) → writtenSymbol k s = (s.requalify k.qualifierOf).string :=
    fun s hs => by rw [← symIn_string hi (covered_of_known hs), symIn_eq]
  cases r with
  | package p =>
    simp only [Reference.text, Reference.textWith, Outcome.ok.injEq]
    by_cases ho : p.importPath = k.pkgPath
    · rw [prefixOf_own ho, Imports.qualifierOf, if_pos ho]; rfl
    · rw [prefixOf_name ho, Imports.qualifierOf, if_neg ho]; rfl
  | symbol s => simp only [Reference.text, Reference.textWith, sym s hk]
  | method m => simp only [Reference.text, Reference.textWith, MethodReference.string, sym m.type hk]
  | type t => rw [Reference.text, Reference.textWith, withPrefix_prefixOf, symIn_fun]

theorem textWith_ok (tbl : Nat → Bool) (n : GoString → GoString) {r : Reference} (hv : r.valid) :
    ∃ s, r.textWith tbl n = .ok s := by
  cases r with
  | type t =>
    obtain ⟨s, hs⟩ := buffer_ok tbl (t := t.mapSymbols (·.requalify n)) (by rw [valid_mapSymbols]; exact hv)
    rw [← string_eq_buffer] at hs
    exact ⟨s, hs⟩
  | _ => exact ⟨_, rfl⟩

theorem shown_ptr (tbl : Nat → Bool) (own : TVal → Shown) (h : Heap) (a : Bool) (v : TVal) :
    (TVal.ptr v).shown tbl own h a = v.shown tbl own h true := by
  rw [TVal.shown, TVal.shown, TVal.indirect]

theorem shown_iface (tbl : Nat → Bool) (own : TVal → Shown) (h : Heap) (a : Bool) (acc : Accepts) (v : TVal) :
    (TVal.iface acc v).shown tbl own h a = v.shown tbl own h false := by
  rw [TVal.shown, TVal.shown, TVal.indirect]

theorem symbol_string_name {a b : Symbol} (h1 : a.package.name = b.package.name) (h2 : a.name = b.name) :
    a.string = b.string := by simp [Symbol.string, h1, h2]

theorem filePackage_some {h : Heap} {f : Ptr} {pkg : Package} (hf : filePackage h f = some pkg) :
    ∃ file, h.files f = some file ∧ file.package = pkg ∧ pkg ≠ ⟨[], []⟩ := by
  rw [filePackage] at hf
  cases hx : h.files f with
  | none => simp [hx] at hf
  | some file =>
    simp only [hx] at hf
    split at hf
    · simp at hf
    · rename_i hne
      obtain rfl := Option.some.inj hf
      exact ⟨file, rfl, rfl, hne⟩

theorem packageAt_stay {h g : Heap} (hg : SpecNamesStay h g) {f : Ptr} {file : GoFile} (hf : h.files f = some file) :
    packageAt g f = .ok file.package := by
  obtain ⟨f', h1, h2⟩ := hg.files f file hf
  simp [packageAt, deref, h1, h2]

/-- What is known of a spec that stands for a symbol. -/
theorem spec_symbol {tbl : Nat → Bool} {h g : Heap} (hg : SpecNamesStay h g) {r : SpecRef} {s : Symbol}
    (hr : r.ref h = some (.symbol s)) : r.package h = some s.package ∧ s.package ≠ ⟨[], []⟩ ∧
      r.shown tbl g = .str s.string ∧ ∀ n, r.shownIn tbl g n = .str (Symbol.string ⟨⟨[], n⟩, s.name⟩) := by
  cases r with
  | value p =>
    rw [SpecRef.ref] at hr
    cases hc : h.values p with
    | none => simp [hc] at hr
    | some c =>
      simp only [hc] at hr
      split at hr
      · rename_i nm f hn hp
        simp only [Option.map_eq_some_iff, Reference.symbol.injEq] at hr
        obtain ⟨pkg, h1, rfl⟩ := hr
        obtain ⟨file, h2, rfl, h3⟩ := filePackage_some h1
        obtain ⟨c', h4, h5, h6⟩ := hg.values p c hc
        refine ⟨by simp [SpecRef.package, SpecRef.parent, deref, hc, hp, h2, Outcome.bind], h3, ?_, fun n => ?_⟩
        · simp [SpecRef.shown, deref, h4, Outcome.bind, ValueSpec.string, h5, h6, hn, hp, ValueSpec.toSymbol,
            ValueSpec.symbolAt, packageAt_stay hg h2, Shown.ofString]
        · simp [SpecRef.shownIn, deref, h4, Outcome.bind, h5, hn, Shown.ofString, joinWith]
      · simp at hr
  | type p =>
    rw [SpecRef.ref] at hr
    cases hc : h.types p with
    | none => simp [hc] at hr
    | some c =>
      simp only [hc] at hr
      split at hr
      · simp at hr
      · rename_i f hp hn
        have hn' : c.name ≠ [] := hn
        simp only [Option.map_eq_some_iff, Reference.symbol.injEq] at hr
        obtain ⟨pkg, h1, rfl⟩ := hr
        obtain ⟨file, h2, rfl, h3⟩ := filePackage_some h1
        obtain ⟨c', h4, h5, h6⟩ := hg.types p c hc
        refine ⟨by simp [SpecRef.package, SpecRef.parent, deref, hc, hp, h2, Outcome.bind], h3, ?_, fun n => ?_⟩
        · simp [SpecRef.shown, deref, h4, Outcome.bind, TypeSpec.string, h5, h6, hn', hp, TypeSpec.toSymbol,
            packageAt_stay hg h2, Shown.ofString]
        · simp [SpecRef.shownIn, deref, h4, Outcome.bind, h5, hn', Shown.ofString]
      · simp at hr
  | func p =>
    rw [SpecRef.ref] at hr
    cases hc : h.funcs p with
    | none => simp [hc] at hr
    | some c =>
      simp only [hc] at hr
      split at hr
      · rename_i f hp
        simp only [Option.map_eq_some_iff] at hr
        obtain ⟨pkg, h1, hr⟩ := hr
        split at hr
        · rename_i hn
          simp only [Reference.symbol.injEq] at hr
          subst hr
          obtain ⟨file, h2, rfl, h3⟩ := filePackage_some h1
          obtain ⟨c', h4, h5, h6, h7⟩ := hg.funcs p c hc
          refine ⟨by simp [SpecRef.package, SpecRef.parent, deref, hc, hp, h2, Outcome.bind], h3, ?_, fun n => ?_⟩
          · simp [SpecRef.shown, deref, h4, Outcome.bind, FuncSpec.string, h5, h6, h7, hn, hp, FuncSpec.toSymbol,
              packageAt_stay hg h2, Shown.ofString, SymbolOrMethodRef.string]
          · simp [SpecRef.shownIn, deref, h4, Outcome.bind, h5, h6, hn, Shown.ofString]
        · simp at hr
      · simp at hr

/-- What is known of a spec that stands for a method. -/
theorem spec_method {tbl : Nat → Bool} {h g : Heap} (hg : SpecNamesStay h g) {r : SpecRef} {m : MethodReference}
    (hr : r.ref h = some (.method m)) : (TVal.spec r).methodSpec h = true ∧
      r.shown tbl g = .str m.method ∧ ∀ n, r.shownIn tbl g n = .str m.method := by
  cases r with
  | value p =>
    rw [SpecRef.ref] at hr
    cases hc : h.values p with
    | none => simp [hc] at hr
    | some c =>
      simp only [hc] at hr
      split at hr <;> simp at hr
  | type p =>
    rw [SpecRef.ref] at hr
    cases hc : h.types p with
    | none => simp [hc] at hr
    | some c =>
      simp only [hc] at hr
      split at hr <;> simp at hr
  | func p =>
    rw [SpecRef.ref] at hr
    cases hc : h.funcs p with
    | none => simp [hc] at hr
    | some c =>
      simp only [hc] at hr
      split at hr
      · rename_i f hp
        simp only [Option.map_eq_some_iff] at hr
        obtain ⟨pkg, h1, hr⟩ := hr
        split at hr
        · simp at hr
        · rename_i rc hn
          simp only [Reference.method.injEq] at hr
          subst hr
          obtain ⟨c', h4, h5, h6, h7⟩ := hg.funcs p c hc
          refine ⟨by simp [TVal.methodSpec, hc, hn], ?_, fun n => ?_⟩
          · simp [SpecRef.shown, deref, h4, Outcome.bind, FuncSpec.string, h5, h6, hn, Shown.ofString]
          · simp [SpecRef.shownIn, deref, h4, Outcome.bind, h5, h6, hn, Shown.ofString]
      · simp at hr

theorem spec_ref_cases {h : Heap} {r : SpecRef} {x : Reference} (hr : r.ref h = some x) :
    (∃ s, x = .symbol s) ∨ ∃ m, x = .method m := by
  cases x with
  | symbol s => exact .inl ⟨s, rfl⟩
  | method m => exact .inr ⟨m, rfl⟩
  | package p | type p =>
    cases r <;> rw [SpecRef.ref] at hr <;> (repeat' split at hr) <;> simp only [reduceCtorEq, Option.map_eq_some_iff] at hr <;>
      obtain ⟨_, _, hr⟩ := hr <;> simp at hr

theorem method_ref {h : Heap} {m : InterfaceMethod} {x : Reference} (hr : m.ref h = some x) :
    ∃ s, x = .method ⟨s, m.name⟩ := by
  rw [InterfaceMethod.ref] at hr
  (repeat' split at hr) <;> simp at hr
  exact ⟨_, hr.symm⟩

/-- A value that is not foreign or is replaced is shown as its reference with the given names. -/
theorem shown_requalify (tbl : Nat → Bool) (own : TVal → Shown) {h g : Heap} (hg : SpecNamesStay h g) (n : GoString → GoString) :
    ∀ (v : TVal) (a : Bool) {r : Reference}, v.ref h a = some r → v.methodSpec h = false →
      (v.foreign = true → v.requalify h n ≠ v) →
      (v.requalify h n).shown tbl own g a = Shown.ofString (r.textWith tbl n)
  | .ptr v, a, r, hr, hm, hf => by
    rw [TVal.ref] at hr
    rw [TVal.methodSpec] at hm
    rw [TVal.foreign, TVal.requalify] at hf
    rw [TVal.requalify, shown_ptr]
    exact shown_requalify tbl own hg n v true hr hm fun h1 h2 => hf h1 (by rw [h2])
  | .iface acc v, a, r, hr, hm, hf => by
    cases hc : v.isConv with
    | false =>
      have hr' : v.ref h false = some r := by
        cases v <;> simp only [TVal.isConv, Bool.true_eq_false] at hc <;> rw [TVal.ref] at hr <;> first | exact hr | simp
      rw [TVal.methodSpec] at hm
      rw [TVal.foreign, requalify_iface h n acc hc] at hf
      rw [requalify_iface h n acc hc, shown_iface]
      exact shown_requalify tbl own hg n v false hr' hm fun h1 h2 => hf h1 (by rw [h2])
    | true =>
      cases v <;> simp only [TVal.isConv, Bool.false_eq_true] at hc
      case typeName t =>
        rw [TVal.ref] at hr
        split at hr
        · rename_i ha
          obtain rfl := Option.some.inj hr
          rw [TVal.requalify, requalifyConverted, Reference.textWith]
          by_cases hch : t.symbols.any (fun s => decide (s.requalify n ≠ s)) = true
          · rw [if_pos (by rw [ha, hch]; rfl), shown_iface]; rfl
          · rw [if_neg (by rw [ha]; simpa using hch), shown_iface, changes_type.1 (by simpa [changes] using hch)]; rfl
        · simp at hr
      case reflectType t =>
        rw [TVal.ref] at hr
        have hf := hf rfl
        rw [TVal.requalify] at hf ⊢
        cases ht : typeNameForReflectType t with
        | ok u =>
          rw [ht] at hr hf
          obtain rfl := Option.some.inj hr
          rw [requalifyConverted] at hf ⊢
          split at hf
          · rename_i hcond
            rw [if_pos hcond, shown_iface]; rfl
          · exact absurd rfl hf
        | panic | hang => simp [ht, convertedRef] at hr
      case goType t =>
        rw [TVal.ref] at hr
        have hf := hf rfl
        rw [TVal.requalify] at hf ⊢
        cases ht : typeNameForGoType t with
        | ok u =>
          rw [ht] at hr hf
          obtain rfl := Option.some.inj hr
          rw [requalifyConverted] at hf ⊢
          split at hf
          · rename_i hcond
            rw [if_pos hcond, shown_iface]; rfl
          · exact absurd rfl hf
        | panic | hang => simp [ht, convertedRef] at hr
      case goObject o =>
        rw [TVal.ref] at hr
        have hf := hf rfl
        rw [TVal.requalify] at hf ⊢
        cases ht : symbolForGoObject o with
        | ok u =>
          rw [ht] at hr hf
          cases u with
          | symbol s =>
            obtain rfl := Option.some.inj hr
            rw [requalifyObject] at hf ⊢
            split at hf
            · rename_i hcond
              rw [if_pos hcond, shown_iface]; rfl
            · exact absurd rfl hf
          | method s =>
            obtain rfl := Option.some.inj hr
            rw [requalifyObject] at hf ⊢
            split at hf
            · rename_i hcond
              rw [if_pos hcond, shown_iface, shown_ptr]; rfl
            · exact absurd rfl hf
        | panic | hang => simp [ht, objectRef] at hr
      case goPackage p =>
        rw [TVal.ref] at hr
        obtain rfl := Option.some.inj hr
        have hf := hf rfl
        rw [TVal.requalify] at hf ⊢
        split at hf
        · rename_i hcond
          rw [if_pos hcond, shown_iface]; rfl
        · exact absurd rfl hf
  | .package p, a, r, hr, _, _ => by
    obtain rfl := Option.some.inj hr
    rw [TVal.requalify]; rfl
  | .symbol s, a, r, hr, _, _ => by
    obtain rfl := Option.some.inj hr
    rw [TVal.requalify]; rfl
  | .mref m, a, r, hr, _, _ => by
    obtain rfl := Option.some.inj hr
    rw [TVal.requalify]; rfl
  | .embed e, a, r, hr, _, _ => by
    cases a with
    | false => simp [TVal.ref] at hr
    | true =>
      obtain rfl := Option.some.inj hr
      rw [TVal.requalify]; rfl
  | .spec sr, a, r, hr, hm, _ => by
    cases a with
    | false => simp [TVal.ref] at hr
    | true =>
      rw [TVal.ref, if_pos rfl] at hr
      rcases spec_ref_cases hr with ⟨s, rfl⟩ | ⟨m, rfl⟩
      · obtain ⟨h1, h2, h3, h4⟩ := spec_symbol (tbl := tbl) hg hr
        rw [TVal.requalify, h1]
        dsimp only
        rw [Reference.textWith, Symbol.requalify, if_neg h2, Shown.ofString]
        split
        · rename_i hn
          show sr.shown tbl g = _
          rw [h3, hn]
        · show sr.shownIn tbl g _ = _
          rw [h4]
          exact congrArg Shown.str (symbol_string_name rfl rfl)
      · rw [(spec_method (tbl := tbl) hg hr).1] at hm
        simp at hm
  | .method m, a, r, hr, hm, _ => by simp [TVal.methodSpec] at hm
  | .signature _, a, r, hr, _, _ | .specCopy _ _, a, r, hr, _, _ | .map _, a, r, hr, _, _ | .slice _, a, r, hr, _, _
  | .struct _, a, r, hr, _, _ | .array _, a, r, hr, _, _ | .scalar _, a, r, hr, _, _ | .imports, a, r, hr, _, _
  | .typeName _, a, r, hr, _, _ | .reflectType _, a, r, hr, _, _ | .goType _, a, r, hr, _, _
  | .goObject _, a, r, hr, _, _ | .goPackage _, a, r, hr, _, _ => by simp [TVal.ref] at hr

/-- The spec of a method is shown as the bare name. -/
theorem shown_methodSpec (tbl : Nat → Bool) (own : TVal → Shown) {h g : Heap} (hg : SpecNamesStay h g) (n : GoString → GoString) :
    ∀ (v : TVal) (a : Bool) {r : Reference}, v.ref h a = some r → v.methodSpec h = true →
      ∃ m, r = .method m ∧ (v.requalify h n).shown tbl own g a = .str m.method
  | .ptr v, a, r, hr, hm => by
    rw [TVal.ref] at hr
    rw [TVal.methodSpec] at hm
    rw [TVal.requalify, shown_ptr]
    exact shown_methodSpec tbl own hg n v true hr hm
  | .iface acc v, a, r, hr, hm => by
    rw [TVal.methodSpec] at hm
    cases hc : v.isConv with
    | false =>
      have hr' : v.ref h false = some r := by
        cases v <;> simp only [TVal.isConv, Bool.true_eq_false] at hc <;> rw [TVal.ref] at hr <;> first | exact hr | simp
      rw [requalify_iface h n acc hc, shown_iface]
      exact shown_methodSpec tbl own hg n v false hr' hm
    | true =>
      cases v <;> simp only [TVal.isConv, Bool.false_eq_true] at hc <;> simp [TVal.methodSpec] at hm
  | .spec sr, a, r, hr, hm => by
    cases a with
    | false => simp [TVal.ref] at hr
    | true =>
      rw [TVal.ref, if_pos rfl] at hr
      rcases spec_ref_cases hr with ⟨s, rfl⟩ | ⟨m, rfl⟩
      · exfalso
        cases sr with
        | func p =>
          rw [SpecRef.ref] at hr
          rw [TVal.methodSpec] at hm
          cases hc : h.funcs p with
          | none => simp [hc] at hm
          | some c =>
            simp only [hc] at hm hr
            cases hrc : c.receiver with
            | none => simp [hrc] at hm
            | some x =>
              split at hr
              · simp only [Option.map_eq_some_iff, hrc] at hr
                obtain ⟨_, _, hr⟩ := hr
                simp at hr
              · simp at hr
        | value p | type p => simp [TVal.methodSpec] at hm
      · obtain ⟨_, h2, h3⟩ := spec_method (tbl := tbl) hg hr
        refine ⟨m, rfl, ?_⟩
        rw [TVal.requalify]
        split
        · split
          · exact h2
          · exact h3 _
        · exact h2
  | .method m, a, r, hr, hm => by
    cases a with
    | false => simp [TVal.ref] at hr
    | true =>
      rw [TVal.ref, if_pos rfl] at hr
      obtain ⟨s, rfl⟩ := method_ref hr
      exact ⟨_, rfl, by rw [TVal.requalify]; rfl⟩
  | .package _, a, r, hr, hm | .symbol _, a, r, hr, hm | .mref _, a, r, hr, hm | .embed _, a, r, hr, hm
  | .signature _, a, r, hr, hm | .specCopy _ _, a, r, hr, hm | .map _, a, r, hr, hm | .slice _, a, r, hr, hm
  | .struct _, a, r, hr, hm | .array _, a, r, hr, hm | .scalar _, a, r, hr, hm | .imports, a, r, hr, hm
  | .typeName _, a, r, hr, hm | .reflectType _, a, r, hr, hm | .goType _, a, r, hr, hm
  | .goObject _, a, r, hr, hm | .goPackage _, a, r, hr, hm => by simp [TVal.methodSpec] at hm

/-- What a foreign value is shown as does not depend on the heap. -/
theorem shown_foreign (tbl : Nat → Bool) (own : TVal → Shown) (h g : Heap) : ∀ (v : TVal) (a : Bool), v.foreign = true →
    v.shown tbl own g a = v.shown tbl own h a
  | .ptr v, a, hf => by
    rw [TVal.foreign] at hf
    rw [shown_ptr, shown_ptr]; exact shown_foreign tbl own h g v true hf
  | .iface acc v, a, hf => by
    rw [TVal.foreign] at hf
    rw [shown_iface, shown_iface]; exact shown_foreign tbl own h g v false hf
  | .reflectType _, _, _ | .goType _, _, _ | .goObject _, _, _ | .goPackage _, _, _ => by simp [TVal.shown, TVal.indirect]
  | .package _, _, hf | .symbol _, _, hf | .mref _, _, hf | .embed _, _, hf | .spec _, _, hf | .method _, _, hf
  | .signature _, _, hf | .specCopy _ _, _, hf | .map _, _, hf | .slice _, _, hf
  | .struct _, _, hf | .array _, _, hf | .scalar _, _, hf | .imports, _, hf
  | .typeName _, _, hf => by simp [TVal.foreign] at hf

/-- The packages that the reference mentions are those that the value does, and its types are the value's. -/
theorem ref_part (h : Heap) : ∀ (v : TVal) (a : Bool) {r : Reference}, v.ref h a = some r →
    (v.validTypes = true → r.valid) ∧ (v.methodSpec h = false → ∀ p ∈ r.mentions, p ∈ v.mentions h)
  | .ptr v, a, r, hr => by
    rw [TVal.ref] at hr
    rw [TVal.validTypes, TVal.methodSpec, TVal.mentions]
    exact ref_part h v true hr
  | .iface acc v, a, r, hr => by
    cases hc : v.isConv with
    | false =>
      have hr' : v.ref h false = some r := by
        cases v <;> simp only [TVal.isConv, Bool.true_eq_false] at hc <;> rw [TVal.ref] at hr <;> first | exact hr | simp
      obtain ⟨h1, h2⟩ := ref_part h v false hr'
      obtain ⟨h3, h4⟩ := part_iface h acc hc
      exact ⟨fun hv => h1 (h3 hv), fun hm p hp => h4 p (h2 (by rw [TVal.methodSpec] at hm; exact hm) p hp)⟩
    | true =>
      cases v <;> simp only [TVal.isConv, Bool.false_eq_true] at hc
      case typeName t =>
        rw [TVal.ref] at hr
        split at hr
        · obtain rfl := Option.some.inj hr
          rw [TVal.validTypes, TVal.mentions]
          exact ⟨id, fun _ p hp => hp⟩
        · simp at hr
      case reflectType t =>
        rw [TVal.ref] at hr
        rw [TVal.validTypes, TVal.mentions]
        cases ht : typeNameForReflectType t with
        | ok u =>
          rw [ht] at hr
          obtain rfl := Option.some.inj hr
          exact ⟨id, fun _ p hp => hp⟩
        | panic | hang => simp [ht, convertedRef] at hr
      case goType t =>
        rw [TVal.ref] at hr
        rw [TVal.validTypes, TVal.mentions]
        cases ht : typeNameForGoType t with
        | ok u =>
          rw [ht] at hr
          obtain rfl := Option.some.inj hr
          exact ⟨id, fun _ p hp => hp⟩
        | panic | hang => simp [ht, convertedRef] at hr
      case goObject o =>
        rw [TVal.ref] at hr
        rw [TVal.validTypes, TVal.mentions]
        cases ht : symbolForGoObject o with
        | ok u =>
          rw [ht] at hr
          cases u <;> obtain rfl := Option.some.inj hr <;> exact ⟨fun _ => trivial, fun _ p hp => hp⟩
        | panic | hang => simp [ht, objectRef] at hr
      case goPackage p =>
        rw [TVal.ref] at hr
        rw [TVal.mentions]
        obtain rfl := Option.some.inj hr
        exact ⟨fun _ => trivial, fun _ p hp => hp⟩
  | .package p, a, r, hr | .symbol p, a, r, hr | .mref p, a, r, hr => by
    obtain rfl := Option.some.inj hr
    exact ⟨fun _ => trivial, fun _ p hp => hp⟩
  | .embed e, a, r, hr => by
    cases a with
    | false => simp [TVal.ref] at hr
    | true =>
      obtain rfl := Option.some.inj hr
      exact ⟨fun _ => trivial, fun _ p hp => hp⟩
  | .spec sr, a, r, hr => by
    cases a with
    | false => simp [TVal.ref] at hr
    | true =>
      rw [TVal.ref, if_pos rfl] at hr
      have hg : SpecNamesStay h h := ⟨fun _ c hc => ⟨c, hc, rfl, rfl⟩, fun _ c hc => ⟨c, hc, rfl, rfl⟩,
        fun _ c hc => ⟨c, hc, rfl, rfl, rfl⟩, fun _ c hc => ⟨c, hc, rfl⟩⟩
      rcases spec_ref_cases hr with ⟨s, rfl⟩ | ⟨m, rfl⟩
      · obtain ⟨h1, h2, -⟩ := spec_symbol (tbl := fun _ => true) hg hr
        refine ⟨fun _ => trivial, fun _ p hp => ?_⟩
        rw [TVal.mentions, h1]
        simpa [Reference.mentions, packagesOf, h2] using hp
      · refine ⟨fun _ => trivial, fun hm => ?_⟩
        rw [(spec_method (tbl := fun _ => true) hg hr).1] at hm
        simp at hm
  | .method m, a, r, hr => by
    cases a with
    | false => simp [TVal.ref] at hr
    | true =>
      rw [TVal.ref, if_pos rfl] at hr
      obtain ⟨s, rfl⟩ := method_ref hr
      exact ⟨fun _ => trivial, fun hm => by simp [TVal.methodSpec] at hm⟩
  | .signature _, a, r, hr | .specCopy _ _, a, r, hr | .map _, a, r, hr | .slice _, a, r, hr
  | .struct _, a, r, hr | .array _, a, r, hr | .scalar _, a, r, hr | .imports, a, r, hr
  | .typeName _, a, r, hr | .reflectType _, a, r, hr | .goType _, a, r, hr
  | .goObject _, a, r, hr | .goPackage _, a, r, hr => by simp [TVal.ref] at hr

end Gopoet
