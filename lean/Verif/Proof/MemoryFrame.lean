import Verif.Spec.Memory
/-!
# Qualification does not store to existing memory
-/

namespace Gopoet
open MM

/-- No address below `b` was stored to. -/
def Kept (b : Nat) (m m' : Mem) : Prop :=
  m.next ≤ m'.next ∧ (∀ p < b, m'.cells p = m.cells p) ∧
    ∃ l, m'.stores = l ++ m.stores ∧ ∀ p ∈ l, b ≤ p

theorem Kept.refl (b : Nat) (m : Mem) : Kept b m m := ⟨Nat.le_refl _, fun _ _ => rfl, [], rfl, by simp⟩

theorem Kept.trans {b : Nat} {m m' m'' : Mem} (h : Kept b m m') (h' : Kept b m' m'') : Kept b m m'' := by
  obtain ⟨h1, h2, l, h3, h4⟩ := h
  obtain ⟨h1', h2', l', h3', h4'⟩ := h'
  refine ⟨Nat.le_trans h1 h1', fun p hp => (h2' p hp).trans (h2 p hp), l' ++ l, by simp [h3', h3], ?_⟩
  intro p hp
  rcases List.mem_append.1 hp with h | h
  · exact h4' p h
  · exact h4 p h

/-- The computation does not store below `b`, and its result satisfies `Q`. -/
def Framed {α : Type} (b : Nat) (x : MM α) (Q : α → Prop) : Prop :=
  ∀ m i, b ≤ m.next → Kept b m (x m i).2.1 ∧ ∀ a, (x m i).1 = .ok a → Q a

section
variable {α β : Type} {b : Nat} {Q : α → Prop} {R : β → Prop}

theorem Framed.pure {a : α} (h : Q a) : Framed b (pure a : MM α) Q := fun m _ _ =>
  ⟨Kept.refl b m, fun a' ha => by
    have : a = a' := by simpa [Pure.pure, MM.pure] using ha
    exact this ▸ h⟩

theorem Framed.panic : Framed b (panic : MM α) Q := fun m _ _ =>
  ⟨Kept.refl b m, fun a' ha => by simp [MM.panic] at ha⟩

theorem Framed.hang : Framed b (hang : MM α) Q := fun m _ _ =>
  ⟨Kept.refl b m, fun a' ha => by simp [MM.hang] at ha⟩

theorem Framed.bind {x : MM α} {f : α → MM β} (h : Framed b x Q) (h' : ∀ a, Q a → Framed b (f a) R) :
    Framed b (x >>= f) R := by
  intro m i hm
  obtain ⟨h1, h2⟩ := h m i hm
  show Kept b m (MM.bind x f m i).2.1 ∧ ∀ a, (MM.bind x f m i).1 = .ok a → R a
  unfold MM.bind
  rcases hx : x m i with ⟨_ | _ | _, m', i'⟩
  · rw [hx] at h1 h2
    obtain ⟨h3, h4⟩ := h' _ (h2 _ rfl) m' i' (Nat.le_trans hm h1.1)
    exact ⟨h1.trans h3, h4⟩
  · rw [hx] at h1
    exact ⟨h1, fun a ha => by simp at ha⟩
  · rw [hx] at h1
    exact ⟨h1, fun a ha => by simp at ha⟩

theorem Framed.weaken {x : MM α} {Q' : α → Prop} (h : Framed b x Q) (h' : ∀ a, Q a → Q' a) : Framed b x Q' :=
  fun m i hm => ⟨(h m i hm).1, fun a ha => h' a ((h m i hm).2 a ha)⟩

theorem Framed.ite {P : Prop} [Decidable P] {x y : MM α} (h : Framed b x Q) (h' : Framed b y Q) :
    Framed b (if P then x else y) Q := by
  split
  · exact h
  · exact h'

end

theorem framed_onImports {α : Type} (b : Nat) (x : IM α) : Framed b (onImports x) fun _ => True :=
  fun m _ _ => ⟨Kept.refl b m, fun _ _ => trivial⟩

theorem framed_alloc (b : Nat) (c : Cell) : Framed b (alloc c) fun p => b ≤ p := by
  intro m i hm
  refine ⟨⟨Nat.le_succ _, fun p hp => ?_, [], rfl, by simp⟩, fun a ha => ?_⟩
  · have : p ≠ m.next := by omega
    simp [alloc, this]
  · have : m.next = a := by simpa [alloc] using ha
    omega

theorem framed_load (b p : Nat) : Framed b (load p) fun _ => True := by
  intro m i hm
  refine ⟨?_, fun _ _ => trivial⟩
  unfold load
  split <;> exact Kept.refl b m

theorem framed_store {b p : Nat} (h : b ≤ p) (c : Cell) : Framed b (store p c) fun _ => True := by
  intro m i hm
  refine ⟨⟨Nat.le_refl _, fun q hq => ?_, [p], rfl, by simpa using h⟩, fun _ _ => trivial⟩
  have : q ≠ p := by omega
  simp [store, this]

theorem framed_loadSig (b p : Nat) : Framed b (loadSig p) fun _ => True := by
  refine (framed_load b p).bind fun c _ => ?_
  split
  · exact .pure trivial
  · exact .panic

theorem framed_loadSlice (b : Nat) (s : Slice) : Framed b (loadSlice s) fun _ => True := by
  intro m i hm
  refine ⟨?_, fun _ _ => trivial⟩
  unfold loadSlice
  split
  · exact Kept.refl b m
  · split <;> exact Kept.refl b m

theorem framed_loadElem (b : Nat) (s : Slice) (idx : Nat) : Framed b (loadElem s idx) fun _ => True := by
  refine (framed_loadSlice b s).bind fun c _ => ?_
  split
  · exact .pure trivial
  · exact .panic

theorem framed_storeElem {b : Nat} {s : Slice} (h : b ≤ s.arr) (idx : Nat) (x : Elem) :
    Framed b (storeElem s idx x) fun _ => True := by
  refine (framed_load b s.arr).bind fun c _ => ?_
  split
  · exact .ite (framed_store h _) .panic
  · exact .panic

theorem framed_copySlice (b : Nat) (s : Slice) : Framed b (copySlice s) fun r => b ≤ r.arr :=
  (framed_loadSlice b s).bind fun l _ => (framed_alloc b (.array l)).bind fun _ hp => .pure hp

theorem framed_orCopy {b : Nat} (s : Slice) : ∀ ret : Option Slice, (∀ r, ret = some r → b ≤ r.arr) →
    Framed b (orCopy s ret) fun r => b ≤ r.arr
  | none, _ => framed_copySlice b s
  | some _, h => .pure (h _ rfl)

theorem framed_rangeLoop {b : Nat} {f : Elem → MM (Option Elem)} (s : Slice)
    (hf : ∀ x, Framed b (f x) fun _ => True) :
    ∀ (n idx : Nat) (ret : Option Slice), (∀ r, ret = some r → b ≤ r.arr) →
      Framed b (rangeLoop f s n idx ret) fun _ => True
  | 0, _, _, _ => .pure trivial
  | n + 1, idx, ret, h => by
    refine (framed_loadElem b s idx).bind fun x _ => (hf x).bind fun y _ => ?_
    split
    · exact framed_rangeLoop s hf n (idx + 1) ret h
    · refine (framed_orCopy s ret h).bind fun r hr =>
        (framed_storeElem hr idx _).bind fun _ _ =>
          framed_rangeLoop s hf n (idx + 1) (some r) fun r' h' => by
            cases h'
            exact hr

theorem framed_rangeCopy {b : Nat} {f : Elem → MM (Option Elem)} (s : Slice)
    (hf : ∀ x, Framed b (f x) fun _ => True) : Framed b (rangeCopy f s) fun _ => True := by
  refine (framed_rangeLoop s hf s.len 0 none (by simp)).bind fun r _ => ?_
  split <;> exact .pure trivial

theorem framed_qualifySymbolsM (b : Nat) (r : Bool) (s : Slice) :
    Framed b (qualifySymbolsM r s) fun _ => True := by
  refine framed_rangeCopy s fun x => ?_
  split
  · exact (framed_onImports b _).bind fun _ _ => .ite (.pure trivial) (.pure trivial)
  · exact .panic

section
variable {b : Nat} {q : MType → MM MType} (hq : ∀ v, Framed b (q v) fun _ => True)
include hq

theorem framed_qualifyArgsM (s : Slice) : Framed b (qualifyArgsM q s) fun _ => True := by
  refine framed_rangeCopy s fun x => ?_
  split
  · exact (hq _).bind fun _ _ => .ite (.pure trivial) (.pure trivial)
  · exact .panic

theorem framed_qualifyFieldsM (s : Slice) : Framed b (qualifyFieldsM q s) fun _ => True := by
  refine framed_rangeCopy s fun x => ?_
  split
  · exact (hq _).bind fun _ _ => .ite (.pure trivial) (.pure trivial)
  · exact .panic

theorem framed_qualifySignatureM (p : Nat) : Framed b (qualifySignatureM q p) fun _ => True :=
  (framed_loadSig b p).bind fun s _ => (framed_qualifyArgsM hq s.args).bind fun _ _ =>
    (framed_loadSig b p).bind fun s _ => (framed_qualifyArgsM hq s.results).bind fun _ _ =>
      (framed_loadSig b p).bind fun _ _ =>
        .ite ((framed_alloc b _).weaken fun _ _ => trivial) (.pure trivial)

theorem framed_qualifyMethodsM (s : Slice) : Framed b (qualifyMethodsM q s) fun _ => True := by
  refine (framed_alloc b _).bind fun m hm => framed_rangeCopy s fun x => ?_
  split
  · exact (framed_store hm _).bind fun _ _ => (framed_qualifySignatureM hq m).bind fun ns _ =>
      .ite ((framed_loadSig b ns).bind fun _ _ => .pure trivial) (.pure trivial)
  · exact .panic

end

theorem framed_funcTypeFromSigM (b p : Nat) : Framed b (funcTypeFromSigM p) fun _ => True := by
  refine (framed_loadSig b p).bind fun s _ => (framed_loadSlice b s.args).bind fun _ _ =>
    (framed_loadSlice b s.results).bind fun _ _ => .ite .panic (.ite .panic (.ite ?_ (.pure trivial)))
  split
  · exact .pure trivial
  · exact .panic

theorem framed_qualifyTypeM (b : Nat) (r : Bool) : ∀ (fuel : Nat) (v : MType),
    Framed b (qualifyTypeM r fuel v) fun _ => True
  | 0, _ => .hang
  | fuel + 1, v => by
    have hq := framed_qualifyTypeM b r fuel
    cases v with
    | nil => exact .panic
    | basic k => exact .pure trivial
    | named p =>
      refine (framed_load b p).bind fun c _ => ?_
      split
      · exact (framed_onImports b _).bind fun _ _ =>
          .ite ((framed_alloc b _).bind fun _ _ => .pure trivial) (.pure trivial)
      · exact .panic
    | ptr e => exact (hq e).bind fun _ _ => .ite (.ite .panic (.pure trivial)) (.pure trivial)
    | slice e => exact (hq e).bind fun _ _ => .ite (.ite .panic (.pure trivial)) (.pure trivial)
    | array e n => exact (hq e).bind fun _ _ => .ite (.ite .panic (.pure trivial)) (.pure trivial)
    | map e k =>
      exact (hq k).bind fun _ _ => (hq e).bind fun _ _ => .ite (.ite .panic (.pure trivial)) (.pure trivial)
    | chan e d => exact (hq e).bind fun _ _ => .ite (.ite .panic (.pure trivial)) (.pure trivial)
    | func p =>
      exact (framed_qualifySignatureM hq p).bind fun np _ => .ite (framed_funcTypeFromSigM b np) (.pure trivial)
    | struct p =>
      refine (framed_load b p).bind fun c _ => ?_
      split
      · exact (framed_copySlice b _).bind fun fs _ => (framed_qualifyFieldsM hq fs).bind fun _ _ =>
          .ite ((framed_alloc b _).bind fun _ _ => .pure trivial) (.pure trivial)
      · exact .panic
    | interface p =>
      refine (framed_load b p).bind fun c _ => ?_
      split
      · exact (framed_copySlice b _).bind fun es _ => (framed_qualifySymbolsM b r es).bind fun _ _ =>
          (framed_copySlice b _).bind fun ms _ => (framed_qualifyMethodsM hq ms).bind fun _ _ =>
          .ite ((framed_alloc b _).bind fun _ _ => .pure trivial) (.pure trivial)
      · exact .panic

theorem Framed.untouched {α : Type} {x : MM α} (h : ∀ b, Framed b x fun _ => True) (m : Mem) (i : Imports) :
    m.Untouched (x m i).2.1 := (h m.next m i (Nat.le_refl _)).1

end Gopoet
