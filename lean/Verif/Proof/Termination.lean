import Verif.Proof.DataCycles
import Verif.Proof.DataRefine
import Verif.Proof.NoHang
import Verif.Proof.Reach
/-!
# Qualification of data and types without cycles ends
-/

namespace Gopoet
open MM

/-- The computation always ends. -/
def NoHang {α : Type} (x : MM α) : Prop := ∀ m i, (x m i).1 ≠ .hang

/-- The computation ends from memory `m`; if it returns, then what was known is still true and the result
satisfies `Q`. -/
def HaltsAt {α : Type} (B : Base) (m : Mem) (i : Imports) (x : MM α) (Q : α → Prop) : Prop :=
  (x m i).1 ≠ .hang ∧ RanAt B m i x Q

/-- That for all memory of which is known what is known. -/
def Halts {α : Type} (B : Base) (x : MM α) (Q : α → Prop) : Prop := ∀ m i, From B m → HaltsAt B m i x Q

section
variable {α β : Type} {B : Base} {m : Mem} {i : Imports} {Q : α → Prop} {R : β → Prop}

theorem NoHang.pure (a : α) : NoHang (Pure.pure a : MM α) := fun m i h => by cases h
theorem NoHang.panic : NoHang (panic : MM α) := fun m i h => by cases h
theorem NoHang.bind {x : MM α} {f : α → MM β} (hx : NoHang x) (hf : ∀ a, NoHang (f a)) : NoHang (x >>= f) := by
  intro m i
  rw [MM.bind_apply]
  rcases hq : x m i with ⟨a | _ | _, m1, i1⟩
  · exact hf a m1 i1
  · exact fun h => by cases h
  · exact absurd (by rw [hq]) (hx m i)
theorem NoHang.ite {P : Prop} [Decidable P] {x y : MM α} (h : NoHang x) (h' : NoHang y) :
    NoHang (if P then x else y) := by split <;> assumption

theorem HaltsAt.bind {x : MM α} {f : α → MM β} (hx : HaltsAt B m i x Q)
    (hf : ∀ a m' i', x m i = (.ok a, m', i') → From B m' → Q a → HaltsAt B m' i' (f a) R) :
    HaltsAt B m i (x >>= f) R := by
  refine ⟨?_, hx.2.bind fun a m' i' he hm ha => (hf a m' i' he hm ha).2⟩
  rw [MM.bind_apply]
  rcases hq : x m i with ⟨a | _ | _, m1, i1⟩
  · obtain ⟨h1, h2⟩ := hx.2 a m1 i1 hq
    exact (hf a m1 i1 hq h1 h2).1
  · exact fun h => by cases h
  · exact absurd (by rw [hq]) hx.1

theorem Halts.of {x : MM α} (h : NoHang x) (h' : Ran B x Q) : Halts B x Q := fun m i hm => ⟨h m i, h' m i hm⟩

theorem Halts.framed {x : MM α} (h : NoHang x) (h' : Framed B.top x Q) : Halts B x Q := .of h (.framed h')

theorem Halts.pure {a : α} (h : Q a) : Halts B (pure a : MM α) Q := .of (.pure a) (.pure h)

theorem Halts.panic : Halts B (panic : MM α) Q := .of .panic .panic

theorem Halts.bind {x : MM α} {f : α → MM β} (hx : Halts B x Q) (hf : ∀ a, Q a → Halts B (f a) R) :
    Halts B (x >>= f) R := fun m i hm => (hx m i hm).bind fun a m' i' _ hm' ha => hf a ha m' i' hm'

theorem Halts.ite {P : Prop} [Decidable P] {x y : MM α} (h : Halts B x Q) (h' : Halts B y Q) :
    Halts B (if P then x else y) Q := by split <;> assumption

theorem Halts.weaken {x : MM α} {Q' : α → Prop} (h : Halts B x Q) (h' : ∀ a, Q a → Q' a) : Halts B x Q' :=
  fun m i hm => ⟨(h m i hm).1, Ran.weaken (fun m i hm => (h m i hm).2) h' m i hm⟩

/-- The same if more is known. -/
theorem Halts.more {B' : Base} {x : MM α} (h : Halts B x Q) (hB : ∀ m, From B' m → From B m)
    (hx : Framed B'.top x fun _ => True) : Halts B' x Q := fun m i hm =>
  ⟨(h m i (hB m hm)).1, Ran.more (fun m i hm => (h m i hm).2) hB hx m i hm⟩

theorem Halts.at {x : MM α} (hm : From B m) (h : Halts m.base x Q) : HaltsAt B m i x Q :=
  ⟨(h m i (.refl m)).1, Ran.at hm fun m i hm => (h m i hm).2⟩

end

/-! ## What always ends -/

theorem noHang_onImports {α : Type} {x : IM α} (h : IM.Ends x) : NoHang (onImports x) := fun _ i => h i
theorem noHang_alloc (c : Cell) : NoHang (alloc c) := fun m i h => by cases h
theorem noHang_store (p : Nat) (c : Cell) : NoHang (store p c) := fun m i h => by cases h
theorem noHang_load (p : Nat) : NoHang (load p) := fun m i => by unfold load; split <;> exact fun h => by cases h
theorem noHang_loadSlice (s : Slice) : NoHang (loadSlice s) := fun m i => by
  unfold loadSlice
  split
  · exact fun h => by cases h
  · split <;> exact fun h => by cases h

theorem noHang_loadSig (p : Nat) : NoHang (loadSig p) := (noHang_load p).bind fun c => by
  split
  · exact .pure _
  · exact .panic

theorem noHang_loadElem (s : Slice) (k : Nat) : NoHang (loadElem s k) := (noHang_loadSlice s).bind fun c => by
  split
  · exact .pure _
  · exact .panic

theorem noHang_loadData (a : Nat) (path : List Nat) : NoHang (loadData a path) := (noHang_load a).bind fun c => by
  split
  · exact .pure _
  · exact .panic

theorem noHang_loadDataElem (s : Slice) (k : Nat) : NoHang (loadDataElem s k) := (noHang_loadElem s k).bind fun c => by
  split
  · exact .pure _
  · exact .panic

theorem noHang_partOf (l : List DVal) (k : Nat) : NoHang (partOf l k) := by
  unfold partOf
  split
  · exact .pure _
  · exact .panic

theorem noHang_storeElem (s : Slice) (k : Nat) (x : Elem) : NoHang (storeElem s k x) := (noHang_load _).bind fun c => by
  split
  · exact .ite (noHang_store _ _) .panic
  · exact .panic

theorem noHang_copySlice (s : Slice) : NoHang (copySlice s) :=
  (noHang_loadSlice s).bind fun _ => (noHang_alloc _).bind fun _ => .pure _

theorem noHang_orCopy (s : Slice) : ∀ ret, NoHang (orCopy s ret)
  | none => noHang_copySlice s
  | some _ => .pure _

theorem noHang_rangeLoop {f : Elem → MM (Option Elem)} (s : Slice) (hf : ∀ x, NoHang (f x)) :
    ∀ n idx ret, NoHang (rangeLoop f s n idx ret)
  | 0, _, _ => .pure _
  | n + 1, idx, ret => by
    refine (noHang_loadElem s idx).bind fun x => (hf x).bind fun y => ?_
    split
    · exact noHang_rangeLoop s hf n (idx + 1) ret
    · exact (noHang_orCopy s ret).bind fun r => (noHang_storeElem r idx _).bind fun _ =>
        noHang_rangeLoop s hf n (idx + 1) (some r)

theorem ends_qualify (s : Symbol) : ∀ r, IM.Ends (Imports.qualify s r)
  | true => ends_ensure s
  | false => .ite (.pure _) (.bind (fun i => by
      unfold Imports.prefixForPackage
      split
      · exact fun h => by cases h
      · split
        · exact fun h => by cases h
        · exact fun h => by cases h) fun _ => .ite (.pure _) (.pure _))

theorem noHang_qualifySymbolsM (r : Bool) (s : Slice) : NoHang (qualifySymbolsM r s) := by
  refine (noHang_rangeLoop s (fun x => ?_) s.len 0 none).bind fun o => ?_
  · split
    · exact (noHang_onImports (ends_qualify _ r)).bind fun _ => .ite (.pure _) (.pure _)
    · exact .panic
  · split <;> exact .pure _

theorem noHang_funcTypeFromSigM (p : Nat) : NoHang (funcTypeFromSigM p) := by
  refine (noHang_loadSig p).bind fun s => (noHang_loadSlice s.args).bind fun _ =>
    (noHang_loadSlice s.results).bind fun _ => .ite .panic (.ite .panic (.ite ?_ (.pure _)))
  split
  · exact .pure _
  · exact .panic

theorem noHang_replacedAt (v : DVal) : NoHang (replacedAt v) := (noHang_alloc _).bind fun _ => .pure _

theorem noHang_setPart (shape : Shape) (a idx : Nat) (v : DVal) : NoHang (setPart shape a idx v) := by
  refine .ite .panic ((noHang_load a).bind fun c => ?_)
  split
  · exact .ite (noHang_store _ _) .panic
  · exact .panic

theorem noHang_setRes (shape : Shape) (a idx : Nat) (r : DRes) : NoHang (setRes shape a idx r) :=
  .ite .panic (noHang_setPart _ _ _ _)

theorem noHang_copyParts {shape : Shape} {get : Nat → MM DVal} (a : Nat) (hg : ∀ k, NoHang (get k)) :
    ∀ n idx, NoHang (copyParts shape get a n idx)
  | 0, _ => .pure _
  | n + 1, idx => (hg idx).bind fun v => (noHang_setPart shape a idx v).bind fun _ => noHang_copyParts a hg n (idx + 1)

theorem noHang_setMapIndexM (a : Nat) (k v : DVal) : NoHang (setMapIndexM a k v) := (noHang_load a).bind fun c => by
  split
  · exact noHang_store _ _
  · exact .panic

theorem noHang_setMapRes (a : Nat) (k v : DRes) : NoHang (setMapRes a k v) := .ite .panic (noHang_setMapIndexM _ _ _)

theorem noHang_copyEntries (a : Nat) : ∀ es, NoHang (copyEntries a es)
  | [] => .pure _
  | (k, v) :: es => (noHang_setMapIndexM a k v).bind fun _ => noHang_copyEntries a es

theorem ends_registerPackage (p : Package) : IM.Ends (Imports.registerPackage p) := .of_returns (returns_registerPackage p)

theorem noHang_qualifyObjectM (acc : Accepts) (orig : DVal) : ∀ o, NoHang (qualifyObjectM acc orig o)
  | .symbol _ => (noHang_onImports (ends_ensure _)).bind fun _ => .ite (.pure _) (.pure _)
  | .method _ => (noHang_onImports (ends_ensure _)).bind fun _ =>
      .ite ((noHang_alloc _).bind fun _ => .pure _) (.pure _)

theorem noHang_qualifySpecInM (r : SpecRef) (orig : DVal) (pkg : Package) : NoHang (qualifySpecInM r orig pkg) :=
  (noHang_onImports (ends_registerPackage _)).bind fun _ => .ite (noHang_replacedAt _) (.pure _)

/-! ## Loops -/

/-- The array of the slice is at an address below `n`, if the slice has one. -/
def Slice.Within (s : Slice) (n : Nat) : Prop := s.len ≠ 0 → s.arr < n

theorem Base.Item.back {B : Base} {m : Mem} (hm : From B m) {s : Slice} (hs : s.Within B.top) {k : Nat} {x : Elem}
    (h : m.base.Item s k x) : B.Item s k x := by
  obtain ⟨-, h2, l, h3, h4⟩ := h
  have h1 := hs (by omega)
  exact ⟨h1, h2, l, (hm.2 _ h1).symm.trans h3, h4⟩

theorem Base.Item.item {m : Mem} {s : Slice} {k : Nat} {x : Elem} (h : m.base.Item s k x) : m.Item s x := by
  obtain ⟨-, h2, l, h3, h4⟩ := h
  exact ⟨h3, h2, h4⟩

theorem item_loadElem {B : Base} {s : Slice} (hs : s.Within B.top) (k : Nat) :
    Ran B (loadElem s k) fun x => B.Item s k x := by
  intro m i hm
  have h1 : RanAt B m i (loadSlice s) fun l => ∀ x, l[k]? = some x → B.Item s k x := by
    intro l m' i' he
    unfold loadSlice at he
    split at he
    · cases he
      exact ⟨hm, fun x hx => by simp at hx⟩
    · rename_i h0
      split at he
      · rename_i l1 hl1
        cases he
        refine ⟨hm, fun x hx => ⟨hs h0, ?_⟩⟩
        rw [List.getElem?_take] at hx
        split at hx
        · rename_i hk
          rw [List.getElem?_drop] at hx
          exact ⟨hk, l1, by rw [← hm.2 _ (hs h0), hl1], hx⟩
        · cases hx
      · cases he
  refine h1.bind fun l m' i' _ hm' hl => ?_
  split
  · rename_i x hx
    exact Ran.pure (hl x hx) m' i' hm'
  · exact Ran.panic m' i' hm'

section
variable {B : Base}

theorem halts_rangeLoop {f : Elem → MM (Option Elem)} {s : Slice} {V : Elem → Prop}
    (hread : ∀ k, Ran B (loadElem s k) V) (hf : ∀ x, V x → Halts B (f x) fun _ => True) :
    ∀ n idx ret, (∀ r, ret = some r → B.top ≤ r.arr) → Halts B (rangeLoop f s n idx ret) fun _ => True
  | 0, _, _, _ => .pure trivial
  | n + 1, idx, ret, h => by
    refine (Halts.of (noHang_loadElem s idx) (hread idx)).bind fun x hx => (hf x hx).bind fun y _ => ?_
    split
    · exact halts_rangeLoop hread hf n (idx + 1) ret h
    · exact (Halts.framed (noHang_orCopy s ret) (framed_orCopy s ret h)).bind fun r hr =>
        (Halts.framed (noHang_storeElem r idx _) (framed_storeElem hr idx _)).bind fun _ _ =>
        halts_rangeLoop hread hf n (idx + 1) (some r) fun r' h' => by
          cases h'
          exact hr

theorem halts_rangeCopy {f : Elem → MM (Option Elem)} {s : Slice} (hs : s.Within B.top)
    (hf : ∀ k x, B.Item s k x → Halts B (f x) fun _ => True) : Halts B (rangeCopy f s) fun _ => True := by
  refine (halts_rangeLoop (V := fun x => ∃ k, B.Item s k x)
    (fun k => (item_loadElem hs k).weaken fun x hx => ⟨k, hx⟩)
    (fun x ⟨k, hx⟩ => hf k x hx) s.len 0 none (by simp)).bind fun r _ => ?_
  split <;> exact .pure trivial

variable {q : MType → MM MType}

theorem halts_qualifyArgsM {s : Slice} (hs : s.Within B.top)
    (hq : ∀ k n t, B.Item s k (.arg n t) → Halts B (q t) fun _ => True) :
    Halts B (qualifyArgsM q s) fun _ => True := by
  refine halts_rangeCopy hs fun k x hx => ?_
  split
  · exact (hq k _ _ hx).bind fun _ _ => .ite (.pure trivial) (.pure trivial)
  · exact .panic

theorem halts_qualifyFieldsM {s : Slice} (hs : s.Within B.top)
    (hq : ∀ k n t tag, B.Item s k (.field n t tag) → Halts B (q t) fun _ => True) :
    Halts B (qualifyFieldsM q s) fun _ => True := by
  refine halts_rangeCopy hs fun k x hx => ?_
  split
  · exact (hq k _ _ _ hx).bind fun _ _ => .ite (.pure trivial) (.pure trivial)
  · exact .panic

/-- What is needed of a signature. -/
def SigHalts (B : Base) (q : MType → MM MType) (s : MSig) : Prop :=
  s.args.Within B.top ∧ s.results.Within B.top ∧
  ∀ k n t, B.Item s.args k (.arg n t) ∨ B.Item s.results k (.arg n t) → Halts B (q t) fun _ => True

variable (hqf : ∀ b t, Framed b (q t) fun _ => True)
include hqf

theorem SigHalts.more {B' : Base} {s : MSig} (h : SigHalts B q s) (hB : ∀ m, From B' m → From B m)
    (hc : ∀ p < B.top, p < B'.top ∧ B'.cells p = B.cells p) : SigHalts B' q s := by
  obtain ⟨h1, h2, h3⟩ := h
  refine ⟨fun h => (hc _ (h1 h)).1, fun h => (hc _ (h2 h)).1, fun k n t hx => (h3 k n t (hx.imp ?_ ?_)).more hB (hqf _ t)⟩
  · rintro ⟨-, hk, l, hl, hx⟩
    have := h1 (by omega)
    exact ⟨this, hk, l, (hc _ this).2.symm.trans hl, hx⟩
  · rintro ⟨-, hk, l, hl, hx⟩
    have := h2 (by omega)
    exact ⟨this, hk, l, (hc _ this).2.symm.trans hl, hx⟩

theorem SigHalts.now {m : Mem} {s : MSig} (h : SigHalts B q s) (hm : From B m) : SigHalts m.base q s :=
  h.more hqf (fun _ h => hm.trans h) fun p hp => ⟨Nat.lt_of_lt_of_le hp (Nat.le_trans B.le hm.1), hm.2 p hp⟩

theorem halts_qualifySignatureM {m : Mem} (hm : From B m) {p : Nat} {s : MSig} (hs : SigHalts B q s)
    (hp : m.cells p = some (.sig s)) (hlt : p < m.next) (i : Imports) :
    HaltsAt B m i (qualifySignatureM q p) fun _ => True := by
  obtain ⟨h1, h2, h3⟩ := hs.now hqf hm
  have hl : Halts m.base (loadSig p) fun s' => s' = s := by
    refine .of (noHang_loadSig p) ((ran_load p).bind fun c hc => ?_)
    have hc' := (hc hlt).symm.trans hp
    cases hc'
    exact .pure rfl
  refine Halts.at hm (hl.bind fun s1 e1 => ?_)
  subst e1
  refine (halts_qualifyArgsM h1 fun k n t hx => h3 k n t (.inl hx)).bind fun args _ => hl.bind fun s2 e2 => ?_
  subst e2
  exact (halts_qualifyArgsM h2 fun k n t hx => h3 k n t (.inr hx)).bind fun results _ => hl.bind fun s3 _ =>
    .ite ((Halts.framed (noHang_alloc _) (framed_alloc _ _)).weaken fun _ _ => trivial) (.pure trivial)

theorem halts_qualifyMethodsM {s : Slice} (hs : s.Within B.top)
    (hq : ∀ k n sg, B.Item s k (.method n sg) → SigHalts B q sg) :
    Halts B (qualifyMethodsM q s) fun _ => True := by
  intro m i hm
  refine HaltsAt.bind (Q := fun p => B.top ≤ p) (Halts.framed (noHang_alloc _) (framed_alloc _ _) m i hm)
    fun p m1 i1 he hm1 hp => ?_
  have hlt : p < m1.next := by
    have : (Outcome.ok m.next, m.after _, i) = (.ok p, m1, i1) := he
    cases this
    exact Nat.lt_succ_self _
  let B' : Base := ⟨B.cells, B.top, m1.next, Nat.le_trans B.le hm1.1⟩
  have hB' : ∀ m', From B' m' → From B m' := fun m' h => ⟨Nat.le_trans hm1.1 h.1, h.2⟩
  have key : Halts B' (rangeCopy (fun
      | .method name sig => do
        store p (.sig sig)
        let ns ← qualifySignatureM q p
        if ns ≠ p then do
          let s ← loadSig ns
          pure (some (.method name s))
        else pure none
      | _ => panic) s) fun _ => True := by
    refine halts_rangeCopy hs fun k x hx => ?_
    split
    · rename_i name sig
      intro m2 i2 hm2
      refine (Halts.framed (B := B') (noHang_store _ _) (framed_store hp _) m2 i2 hm2).bind fun _ m3 i3 he3 hm3 _ => ?_
      have : (Outcome.ok (), m2.put p (.sig sig), i2) = (.ok (), m3, i3) := he3
      cases this
      have hsig : SigHalts B' q sig := (hq k name sig hx).more hqf hB' fun p hp => ⟨hp, rfl⟩
      refine (halts_qualifySignatureM hqf hm3 (p := p) (s := sig) hsig (by simp [Mem.put])
        (Nat.lt_of_lt_of_le hlt hm3.1) i2).bind fun ns m4 i4 _ hm4 _ => ?_
      exact Halts.ite ((Halts.framed (noHang_loadSig _) (framed_loadSig _ _)).bind fun _ _ => .pure trivial)
        (.pure trivial) m4 i4 hm4
    · exact .panic
  obtain ⟨h1, h2⟩ := key m1 i1 ⟨Nat.le_refl _, hm1.2⟩
  exact ⟨h1, fun a m' i' he' => ⟨hB' _ (h2 a m' i' he').1, trivial⟩⟩

end

/-- A slice is copied: the new one has the same elements. -/
theorem halts_copySlice {β : Type} {B : Base} {s : Slice} (hs : s.Within B.top) {F : Slice → MM β} {R : β → Prop}
    (h : ∀ m r, From B m → r.Within m.next → (∀ k x, m.base.Item r k x → B.Item s k x) → Halts m.base (F r) R) :
    Halts B (copySlice s >>= F) R := by
  intro m i hm
  have h1 : HaltsAt B m i (copySlice s) fun _ => True := ⟨noHang_copySlice s m i,
    fun a m' i' he => ⟨(Ran.framed (framed_copySlice B.top s) m i hm a m' i' he).1, trivial⟩⟩
  refine h1.bind fun r m' i' he hm' _ => Halts.at hm' ?_
  unfold copySlice at he
  rw [MM.bind_apply] at he
  rcases hl : loadSlice s m i with ⟨l | _ | _, m1, i1⟩
  · rw [hl] at he
    have : (Outcome.ok (⟨m1.next, 0, s.len⟩ : Slice), m1.after (.array l), i1) = (.ok r, m', i') := he
    cases this
    refine h _ _ hm' (fun _ => Nat.lt_succ_self _) fun k x hx => ?_
    obtain ⟨-, hk, l', hl', hx⟩ := hx
    simp only [Mem.base, Mem.after, if_true, Option.some.injEq, Cell.array.injEq] at hl'
    subst hl'
    have hw := hs (by have : k < s.len := hk; omega)
    unfold loadSlice at hl
    rw [if_neg (by have : k < s.len := hk; omega), hm.2 _ hw] at hl
    split at hl
    · rename_i l2 hl2
      cases hl
      rw [Nat.zero_add, List.getElem?_take, if_pos hk, List.getElem?_drop] at hx
      exact ⟨hw, hk, l2, hl2, hx⟩
    · cases hl
  · rw [hl] at he
    cases he
  · rw [hl] at he
    cases he

section
variable {B : Base} {shape : Shape} {addr : Bool} {get : Nat → MM DVal} {q : DVal → MM DRes}

theorem halts_partsLoop {V : DVal → Prop} (hget : ∀ k, Framed B.top (get k) fun _ => True)
    (hn : ∀ k, NoHang (get k)) (hread : ∀ k, Ran B (get k) V)
    (hq : ∀ v, V v → Halts B (q v) fun _ => True) (total : Nat) :
    ∀ n idx new, (∀ a, new = some a → B.top ≤ a) → Halts B (partsLoop shape addr get q total n idx new) fun _ => True
  | 0, _, _, _ => .pure trivial
  | n + 1, idx, new, hnew => by
    refine .ite .panic ((Halts.of (hn idx) (hread idx)).bind fun v hv => (hq v hv).bind fun r _ => ?_)
    have next : ∀ a, B.top ≤ a → Halts B (partsLoop shape addr get q total n (idx + 1) (some a)) fun _ => True :=
      fun a ha => halts_partsLoop hget hn hread hq total n (idx + 1) (some a) fun a' h' => by
        cases h'
        exact ha
    cases new with
    | some a =>
      exact (Halts.framed (noHang_setRes _ _ _ _) (framed_setRes (hnew a rfl) _ _ _)).bind fun _ _ =>
        next a (hnew a rfl)
    | none =>
      exact .ite (.ite ((Halts.framed (noHang_alloc _) (framed_alloc _ _)).bind fun a ha =>
        (Halts.framed (noHang_copyParts _ hn _ _) (framed_copyParts hget ha idx 0)).bind fun _ _ =>
        (Halts.framed (noHang_setRes _ _ _ _) (framed_setRes ha _ _ _)).bind fun _ _ => next a ha) .panic)
        (halts_partsLoop hget hn hread hq total n (idx + 1) none fun _ h => by cases h)

theorem halts_entriesLoop :
    ∀ es seen new, (∀ e ∈ es, Halts B (q e.1) (fun _ => True) ∧ Halts B (q e.2) fun _ => True) →
      (∀ a, new = some a → B.top ≤ a) → Halts B (entriesLoop q es seen new) fun _ => True
  | [], _, _, _, _ => .pure trivial
  | (k, v) :: es, seen, new, hq, hn => by
    refine (hq (k, v) (by simp)).1.bind fun rk _ => (hq (k, v) (by simp)).2.bind fun rv _ => ?_
    have hq' : ∀ e ∈ es, Halts B (q e.1) (fun _ => True) ∧ Halts B (q e.2) fun _ => True :=
      fun e he => hq e (List.mem_cons_of_mem _ he)
    have next : ∀ a seen, B.top ≤ a → Halts B (entriesLoop q es seen (some a)) fun _ => True :=
      fun a seen ha => halts_entriesLoop es seen (some a) hq' fun a' h' => by
        cases h'
        exact ha
    cases new with
    | some a =>
      exact (Halts.framed (noHang_setMapRes _ _ _) (framed_setMapRes (hn a rfl) _ _)).bind fun _ _ =>
        next a seen (hn a rfl)
    | none =>
      exact .ite ((Halts.framed (noHang_alloc _) (framed_alloc _ _)).bind fun a ha =>
        (Halts.framed (noHang_copyEntries _ _) (framed_copyEntries ha seen)).bind fun _ _ =>
        (Halts.framed (noHang_setMapRes _ _ _) (framed_setMapRes ha _ _)).bind fun _ _ => next a [] ha)
        (halts_entriesLoop es _ none hq' fun _ h => by cases h)

end

/-! ## One step -/

/-- Everything of `x` ends with that much fuel. -/
def Stops (h : Heap) (m0 : Mem) (fuel : Nat) : Node → Prop
  | .data d => ∀ addr, Halts m0.base (qualifyD h fuel addr d) fun _ => True
  | .type t => ∀ r, Halts m0.base (qualifyTypeM r fuel t) fun _ => True
  | .sig s => ∀ r, SigHalts m0.base (qualifyTypeM r fuel) s

theorem Mem.Sound.uses {m : Mem} {x : Node} (h : m.Sound x) {a : Nat} (ha : m.Uses x a) : a < m.next := h x .refl a ha

theorem Mem.Sound.step {m : Mem} {x y : Node} (h : m.Sound x) (hy : m.Holds x y) : m.Sound y :=
  fun z hz a ha => h z (.head hy hz) a ha

section
variable {h : Heap} {m0 : Mem} {fuel : Nat}

theorem stops_sig {s : MSig} (hs : m0.Sound (.sig s)) (ih : ∀ y, m0.Holds (.sig s) y → Stops h m0 fuel y) :
    Stops h m0 fuel (.sig s) := fun r => by
  refine ⟨fun h => hs.uses (.args h), fun h => hs.uses (.results h), ?_⟩
  rintro k n t (hx | hx)
  · exact ih _ (.arg hx.item) r
  · exact ih _ (.result hx.item) r

theorem stops_type {t : MType} (hs : m0.Sound (.type t)) (ih : ∀ y, m0.Holds (.type t) y → Stops h m0 fuel y) :
    Stops h m0 (fuel + 1) (.type t) := fun r => by
  have hqf : ∀ b t, Framed b (qualifyTypeM r fuel t) fun _ => True := fun b => framed_qualifyTypeM b r fuel
  cases t with
  | nil => exact .panic
  | basic k => exact .pure trivial
  | named p =>
    refine (Halts.of (noHang_load p) (ran_load p)).bind fun c _ => ?_
    split
    · exact (Halts.framed (noHang_onImports (ends_qualify _ r)) (framed_onImports _ _)).bind fun _ _ =>
        .ite ((Halts.framed (noHang_alloc _) (framed_alloc _ _)).bind fun _ _ => .pure trivial) (.pure trivial)
    · exact .panic
  | ptr e => exact (ih _ .ptrElem r).bind fun _ _ => .ite (.ite .panic (.pure trivial)) (.pure trivial)
  | slice e => exact (ih _ .sliceElem r).bind fun _ _ => .ite (.ite .panic (.pure trivial)) (.pure trivial)
  | array e n => exact (ih _ .arrayElem r).bind fun _ _ => .ite (.ite .panic (.pure trivial)) (.pure trivial)
  | chan e d => exact (ih _ .chanElem r).bind fun _ _ => .ite (.ite .panic (.pure trivial)) (.pure trivial)
  | map e k =>
    exact (ih _ .mapKey r).bind fun _ _ => (ih _ .mapElem r).bind fun _ _ =>
      .ite (.ite .panic (.pure trivial)) (.pure trivial)
  | func p =>
    have hlt := hs.uses .func
    refine Halts.bind (Q := fun _ => True) (fun m i hm => ?_) fun np _ =>
      .ite (Halts.framed (noHang_funcTypeFromSigM np) (framed_funcTypeFromSigM _ np)) (.pure trivial)
    by_cases hp : ∃ s, m0.cells p = some (.sig s)
    · obtain ⟨s, hp⟩ := hp
      exact halts_qualifySignatureM hqf hm (ih _ (.func hp) r) ((hm.2 p hlt).trans hp)
        (Nat.lt_of_lt_of_le hlt hm.1) i
    · refine Halts.bind (Q := fun _ => False) (.of (noHang_loadSig p) ((ran_load p).bind fun c hc => ?_))
        (fun _ h => h.elim) m i hm
      split
      · rename_i s
        exact absurd ⟨s, hc hlt⟩ hp
      · exact .panic
  | struct p =>
    have hlt := hs.uses .struct
    refine (Halts.of (noHang_load p) (ran_load p)).bind fun c hc => ?_
    split
    · rename_i fields
      have hp := hc hlt
      refine halts_copySlice (fun h => hs.uses (.fields hp h)) fun m1 fs hm1 hw hfs => ?_
      refine (halts_qualifyFieldsM hw fun k n t tag hx =>
        (ih _ (.fieldType hp (hfs k _ hx).item) r).more (fun _ h => hm1.trans h) (hqf _ t)).bind fun nf _ => ?_
      exact .ite ((Halts.framed (noHang_alloc _) (framed_alloc _ _)).bind fun _ _ => .pure trivial) (.pure trivial)
    · exact .panic
  | interface p =>
    have hlt := hs.uses .interface
    refine (Halts.of (noHang_load p) (ran_load p)).bind fun c hc => ?_
    split
    · rename_i methods embeds
      have hp := hc hlt
      refine (Halts.framed (noHang_copySlice _) (framed_copySlice _ _)).bind fun es _ =>
        (Halts.framed (noHang_qualifySymbolsM r es) (framed_qualifySymbolsM _ r es)).bind fun ne _ =>
        halts_copySlice (fun h => hs.uses (.methods hp h)) fun m1 ms hm1 hw hms => ?_
      refine (halts_qualifyMethodsM hqf hw fun k n sg hx =>
        SigHalts.now hqf (ih _ (.methodSig hp (hms k _ hx).item) r) hm1).bind fun nm _ => ?_
      exact .ite ((Halts.framed (noHang_alloc _) (framed_alloc _ _)).bind fun _ _ => .pure trivial) (.pure trivial)
    · exact .panic

/-- A type that was converted from a reflect type or a go/types type. -/
theorem halts_built {acc : Accepts} {d : DVal} {o : Outcome TypeName} (ho : o ≠ .hang) (hf : convNeed o ≤ fuel + 1) :
    Halts m0.base (onImports (IM.lift o) >>= fun t => buildType t >>= fun v => qualifyConvertedM fuel acc d v)
      fun _ => True := by
  intro m i hm
  refine ⟨?_, Ran.framed ((framed_onImports _ _).bind fun _ _ => (framed_buildType _ _).bind fun _ _ =>
    framed_qualifyConvertedM _ _ _ _ _) m i hm⟩
  cases o with
  | hang => exact absurd rfl ho
  | panic => exact fun h => by cases h
  | ok t =>
    rw [convNeed] at hf
    have he : At (fun _ => none) m := ⟨fun p c hp => by simp at hp, fun p c hp => by simp at hp⟩
    obtain ⟨v, h', m', e, st, ht⟩ := builds_type t _ m i he
    have h1 := sim_qualifyTypeM true fuel t (by omega) v h' m' i st.after ht
    have h2 : (qualifyTypeM true fuel v m' i).1 ≠ .hang := by
      unfold Sim at h1
      have h3 := ends_qualifyType t i
      generalize Imports.qualifyType true t i = y at h1 h3
      obtain ⟨_ | _ | _, i'⟩ := y
      · obtain ⟨b, _, _, e, _⟩ := h1
        rw [e]
        exact fun h => by cases h
      · obtain ⟨_, e⟩ := h1
        rw [e]
        exact fun h => by cases h
      · exact absurd rfl h3
    show ((buildType t >>= fun v => qualifyConvertedM fuel acc d v) m i).1 ≠ .hang
    rw [MM.bind_apply, e]
    show (qualifyConvertedM fuel acc d v m' i).1 ≠ .hang
    unfold qualifyConvertedM ensureTypeImportedM
    rw [MM.bind_apply]
    rcases hq : qualifyTypeM true fuel v m' i with ⟨_ | _ | _, m2, i2⟩
    · dsimp only
      exact NoHang.ite (.pure _) (.pure _) m2 i2
    · exact fun h => by cases h
    · rw [hq] at h2
      exact absurd rfl h2

/-- The fuel that is needed for the conversions themselves. -/
noncomputable def ownNeed : Node → Nat
  | .data (.iface _ (.reflectType _ t)) => convNeed (typeNameForReflectType t)
  | .data (.iface _ (.goType _ t)) => convNeed (typeNameForGoType t)
  | _ => 0

theorem stops_data {d : DVal} (hs : m0.Sound (.data d)) (ih : ∀ y, m0.Holds (.data d) y → Stops h m0 fuel y)
    (hf : ownNeed (.data d) ≤ fuel) : Stops h m0 (fuel + 1) (.data d) := fun addr => by
  have hqf : ∀ b t, Framed b (qualifyTypeM true fuel t) fun _ => True := fun b => framed_qualifyTypeM b true fuel
  have done : ∀ v, Halts m0.base (pure (unchanged v)) fun _ => True := fun v => .pure trivial
  have hrep : ∀ v, Halts m0.base (replacedAt v) fun _ => True := fun v =>
    .framed (noHang_replacedAt v) (framed_replacedAt _ v)
  cases d with
  | iface acc v =>
    have hin : (∀ addr, Halts m0.base (qualifyD h fuel addr v) fun _ => True) → Halts m0.base (do
        let r ← qualifyD h fuel false v
        if r.changed then pure { r with val := .iface acc r.val, retyped := false }
        else pure (unchanged (.iface acc v))) fun _ => True := fun hv =>
      (hv false).bind fun _ _ => .ite (.pure trivial) (.pure trivial)
    cases v with
    | typeName t =>
      exact (ih (.type t) .typeName true).bind fun _ _ => .ite (.pure trivial) (.pure trivial)
    | reflectType _ t => exact halts_built (ends_reflectType t) (Nat.le_succ_of_le hf)
    | goType _ t => exact halts_built (ends_goType t) (Nat.le_succ_of_le hf)
    | goObject _ o =>
      exact (Halts.framed (noHang_onImports (.lift (ends_goObject o))) (framed_onImports _ _)).bind fun _ _ =>
        .framed (noHang_qualifyObjectM _ _ _) (framed_qualifyObjectM _ _ _ _)
    | goPackage _ g =>
      exact (Halts.framed (noHang_onImports (.lift (ends_package _))) (framed_onImports _ _)).bind fun _ _ =>
        (Halts.framed (noHang_onImports (ends_registerPackage _)) (framed_onImports _ _)).bind fun _ _ =>
        .ite (.pure trivial) (.pure trivial)
    | _ => exact hin (ih (.data _) .iface)
  | package p =>
    exact (Halts.framed (noHang_onImports (ends_registerPackage _)) (framed_onImports _ _)).bind fun _ _ =>
      .ite (hrep _) (done _)
  | symbol p =>
    exact (Halts.framed (noHang_onImports (ends_ensure _)) (framed_onImports _ _)).bind fun _ _ =>
      .ite (hrep _) (done _)
  | mref p =>
    exact (Halts.framed (noHang_onImports (ends_ensure _)) (framed_onImports _ _)).bind fun _ _ =>
      .ite (hrep _) (done _)
  | signature s =>
    rw [qualifyD]
    intro m i hm
    refine HaltsAt.bind (Q := fun _ => True) (((Halts.framed (noHang_alloc _) (framed_alloc _ _)).weaken
      fun _ _ => trivial) m i hm) fun p m1 i1 he hm1 _ => ?_
    have : (Outcome.ok m.next, m.after (.sig s), i) = (.ok p, m1, i1) := he
    cases this
    refine (halts_qualifySignatureM hqf hm1 (s := s) (ih (.sig s) .signature true) (by simp [Mem.after])
      (Nat.lt_succ_self _) i).bind fun ns m2 i2 _ hm2 _ => ?_
    exact Halts.ite ((Halts.framed (noHang_loadSig _) (framed_loadSig _ _)).bind fun _ _ => .pure trivial)
      (.pure trivial) m2 i2 hm2
  | method x =>
    rw [qualifyD]
    intro m i hm
    refine HaltsAt.bind (Q := fun _ => True) (((Halts.framed (noHang_alloc _) (framed_alloc _ _)).weaken
      fun _ _ => trivial) m i hm) fun p m1 i1 he hm1 _ => ?_
    have : (Outcome.ok m.next, m.after (.sig x.sig), i) = (.ok p, m1, i1) := he
    cases this
    refine HaltsAt.bind (Q := fun p => m0.base.top ≤ p) (Halts.framed (noHang_alloc _) (framed_alloc _ _) _ i hm1)
      fun p' m1 i1 he' hm1 hp' => ?_
    have : (Outcome.ok (m.next + 1), (m.after (.sig x.sig)).after (.data (.method x)), i) = (.ok p', m1, i1) := he'
    cases this
    refine (halts_qualifySignatureM hqf hm1 (s := x.sig) (ih (.sig x.sig) .method true) (by simp [Mem.after])
      (by simp only [Mem.after]; omega) i).bind fun ns m2 i2 _ hm2 _ => ?_
    exact Halts.ite ((Halts.framed (noHang_loadSig _) (framed_loadSig _ _)).bind fun _ _ =>
      (Halts.framed (noHang_store _ _) (framed_store hp' _)).bind fun _ _ => .pure trivial)
      (.pure trivial) m2 i2 hm2
  | spec r =>
    refine (Halts.framed (noHang_onImports (.lift (ends_parent h r))) (framed_onImports _ _)).bind fun o _ => ?_
    cases o with
    | none => exact done _
    | some f =>
      exact (Halts.framed (noHang_onImports (.lift (ends_deref _ _))) (framed_onImports _ _)).bind fun _ _ =>
        .framed (noHang_qualifySpecInM _ _ _) (framed_qualifySpecInM _ _ _ _)
  | specCopy r n => exact .framed (noHang_qualifySpecInM _ _ _) (framed_qualifySpecInM _ _ _ _)
  | embed e =>
    exact (Halts.framed (noHang_alloc _) (framed_alloc _ _)).bind fun p hp =>
      (Halts.framed (noHang_onImports (ends_ensure _)) (framed_onImports _ _)).bind fun _ _ =>
      (Halts.framed (noHang_store _ _) (framed_store hp _)).bind fun _ _ => .ite (.pure trivial) (done _)
  | ptr a path =>
    have ha := hs.uses .ptr
    have hread : Ran m0.base (loadData a path) fun v => Part.dataAt m0.cells a path = some v := by
      refine (ran_load a).bind fun c hc => ?_
      split
      · rename_i v hv
        refine .pure ?_
        have : m0.cells a = some c := hc ha
        simp only [Part.dataAt, this, hv]
      · exact .panic
    refine (Halts.of (noHang_loadData a path) hread).bind fun v hv =>
      (ih (.data v) (.ptr hv) true).bind fun r _ => .ite ?_ (done _)
    split
    · exact .pure trivial
    · exact (Halts.framed (noHang_alloc _) (framed_alloc _ _)).bind fun _ hp =>
        (Halts.framed (noHang_store _ _) (framed_store hp _)).bind fun _ _ => .pure trivial
  | struct fs =>
    have hread : ∀ k, Ran m0.base (partOf (fs.map (·.2)) k) fun v => ∃ e, (e, v) ∈ fs := by
      intro k
      unfold partOf
      split
      · rename_i v hv
        obtain ⟨e, he, rfl⟩ := List.mem_map.1 (List.mem_of_getElem? hv)
        exact .pure ⟨e.1, he⟩
      · exact .panic
    refine (halts_partsLoop (framed_partOf _ _) (noHang_partOf _) hread
      (fun v ⟨e, he⟩ => ih (.data v) (.field he) addr) _ _ _ none fun _ h => by cases h).bind fun o _ => ?_
    split
    · exact (Halts.framed (noHang_loadData _ _) (framed_loadData _ _ _)).bind fun _ _ => .pure trivial
    · exact done _
  | array vs =>
    have hread : ∀ k, Ran m0.base (partOf vs k) fun v => v ∈ vs := by
      intro k
      unfold partOf
      split
      · rename_i v hv
        exact .pure (List.mem_of_getElem? hv)
      · exact .panic
    refine (halts_partsLoop (framed_partOf _ _) (noHang_partOf _) hread
      (fun v he => ih (.data v) (.elem he) addr) _ _ _ none fun _ h => by cases h).bind fun o _ => ?_
    split
    · exact (Halts.framed (noHang_loadData _ _) (framed_loadData _ _ _)).bind fun _ _ => .pure trivial
    · exact done _
  | slice s =>
    have hread : ∀ k, Ran m0.base (loadDataElem s k) fun v => m0.Item s (.data v) := by
      intro k
      refine (item_loadElem (fun h => hs.uses (.slice h)) k).bind fun x hx => ?_
      split
      · exact .pure hx.item
      · exact .panic
    refine (halts_partsLoop (framed_loadDataElem _ _) (noHang_loadDataElem _) hread
      (fun v he => ih (.data v) (.item he) true) _ _ _ none fun _ h => by cases h).bind fun o _ => ?_
    split
    · exact .pure trivial
    · exact done _
  | map a =>
    have ha := hs.uses .map
    refine (Halts.of (noHang_load a) (ran_load a)).bind fun c hc => ?_
    split
    · rename_i es
      have hm := hc ha
      refine (halts_entriesLoop es _ none (fun e he => ⟨ih (.data e.1) (.key hm he) false,
        ih (.data e.2) (.value hm he) false⟩) fun _ h => by cases h).bind fun o _ => ?_
      split
      · exact .pure trivial
      · exact done _
    · exact .panic
  | _ => exact done _

end

/-! ## All of it -/

/-- There is fuel for everything that is directly in `x`. -/
theorem fuel_for_all {h : Heap} {m0 : Mem} (hg : m0.Good) {x : Node}
    (ih : ∀ y, m0.Holds x y → ∃ n, ∀ fuel ≥ n, Stops h m0 fuel y) :
    ∃ n, ∀ fuel ≥ n, ∀ y, m0.Holds x y → Stops h m0 fuel y := by
  obtain ⟨l, hl⟩ := reach_finite hg x
  have key : ∀ l : List Node, ∃ n, ∀ fuel ≥ n, ∀ y ∈ l, m0.Holds x y → Stops h m0 fuel y := by
    intro l
    induction l with
    | nil => exact ⟨0, fun _ _ y hy => by cases hy⟩
    | cons z l ihl =>
      obtain ⟨n, hn⟩ := ihl
      by_cases hz : m0.Holds x z
      · obtain ⟨k, hk⟩ := ih z hz
        refine ⟨max n k, fun fuel hf y hy hxy => ?_⟩
        rcases List.mem_cons.1 hy with rfl | hy
        · exact hk fuel (by omega)
        · exact hn fuel (by omega) y hy hxy
      · refine ⟨n, fun fuel hf y hy hxy => ?_⟩
        rcases List.mem_cons.1 hy with rfl | hy
        · exact absurd hxy hz
        · exact hn fuel hf y hy hxy
  obtain ⟨n, hn⟩ := key l
  exact ⟨n, fun fuel hf y hy => hn fuel hf y (hl y (.single hy)) hy⟩

theorem stops_of_ends (h : Heap) {m0 : Mem} (hg : m0.Good) {x : Node} (he : m0.Ends x) (hs : m0.Sound x) :
    ∃ n, ∀ fuel ≥ n, Stops h m0 fuel x := by
  induction he with
  | intro x _ ih =>
    obtain ⟨n, hn⟩ := fuel_for_all (h := h) hg fun y hy => ih y hy (hs.step hy)
    refine ⟨max n (ownNeed x) + 1, fun fuel hf => ?_⟩
    obtain ⟨f, rfl⟩ : ∃ f, fuel = f + 1 := ⟨fuel - 1, by omega⟩
    cases x with
    | data d => exact stops_data hs (hn f (by omega)) (by omega)
    | type t => exact stops_type hs (hn f (by omega))
    | sig s => exact stops_sig hs (hn (f + 1) (by omega))

end Gopoet
