import Verif.Proof.DataFrame
import Verif.Spec.Cycles
import Verif.Proof.MemoryRefine
/-!
# Qualification of template data returns only if there are no cycles
-/

namespace Gopoet
open MM

/-- Everything that is in `x`, at any depth, is reached. -/
abbrev Mem.Ends (m : Mem) (x : Node) : Prop := Acc (fun y x => m.Holds x y) x

theorem Mem.Ends.not_cyclic {m : Mem} {x : Node} (h : m.Ends x) : ¬ m.Cyclic x := by
  induction h with
  | intro x hx ih =>
    rintro ⟨y, hxy, hc⟩
    rcases Relation.ReflTransGen.cases_head hxy with rfl | ⟨z, hz, hzy⟩
    · obtain ⟨z, hz, hzx⟩ := Relation.TransGen.head'_iff.1 hc
      exact ih z hz ⟨x, hzx, hc⟩
    · exact ih z hz ⟨y, hzy, hc⟩

/-- What is known of memory: what is at the addresses below `top`, and that those below `next` are in use. -/
structure Base where
  cells : Part
  top : Nat
  next : Nat
  le : top ≤ next

/-- All that is in memory. -/
def Mem.base (m : Mem) : Base := ⟨m.cells, m.next, m.next, Nat.le_refl _⟩

/-- Memory of which that is known. -/
def From (B : Base) (m : Mem) : Prop := B.next ≤ m.next ∧ ∀ p < B.top, m.cells p = B.cells p

theorem From.refl (m : Mem) : From m.base m := ⟨Nat.le_refl _, fun _ _ => rfl⟩

theorem From.trans {B : Base} {m m' : Mem} (h : From B m) (h' : From m.base m') : From B m' :=
  ⟨Nat.le_trans h.1 h'.1, fun p hp => (h'.2 p (Nat.lt_of_lt_of_le hp (Nat.le_trans B.le h.1))).trans (h.2 p hp)⟩

theorem From.kept {B : Base} {m m' : Mem} (h : From B m) (h' : Kept B.top m m') : From B m' :=
  ⟨Nat.le_trans h.1 h'.1, fun p hp => (h'.2.1 p hp).trans (h.2 p hp)⟩

/-- If the computation returns from memory `m`, then what was known is still true and the result satisfies `Q`. -/
def RanAt {α : Type} (B : Base) (m : Mem) (i : Imports) (x : MM α) (Q : α → Prop) : Prop :=
  ∀ a m' i', x m i = (.ok a, m', i') → From B m' ∧ Q a

/-- That for all memory of which is known what is known. -/
def Ran {α : Type} (B : Base) (x : MM α) (Q : α → Prop) : Prop := ∀ m i, From B m → RanAt B m i x Q

section
variable {α β : Type} {B : Base} {m : Mem} {i : Imports} {Q : α → Prop} {R : β → Prop}

theorem RanAt.bind {x : MM α} {f : α → MM β} (hx : RanAt B m i x Q)
    (hf : ∀ a m' i', x m i = (.ok a, m', i') → From B m' → Q a → RanAt B m' i' (f a) R) :
    RanAt B m i (x >>= f) R := by
  intro b m' i' he
  rw [MM.bind_apply] at he
  rcases hq : x m i with ⟨a | _ | _, m1, i1⟩
  · rw [hq] at he
    obtain ⟨h1, h2⟩ := hx a m1 i1 hq
    exact hf a m1 i1 hq h1 h2 b m' i' he
  · rw [hq] at he
    cases he
  · rw [hq] at he
    cases he

theorem Ran.pure {a : α} (h : Q a) : Ran B (pure a : MM α) Q := by
  intro m i hm a' m' i' he
  have : (Outcome.ok a, m, i) = (.ok a', m', i') := he
  cases this
  exact ⟨hm, h⟩

theorem Ran.panic : Ran B (panic : MM α) Q := fun m i _ a m' i' he => by
  have : (Outcome.panic, m, i) = (.ok a, m', i') := he
  cases this

theorem Ran.hang : Ran B (hang : MM α) Q := fun m i _ a m' i' he => by
  have : (Outcome.hang, m, i) = (.ok a, m', i') := he
  cases this

theorem Ran.bind {x : MM α} {f : α → MM β} (hx : Ran B x Q) (hf : ∀ a, Q a → Ran B (f a) R) : Ran B (x >>= f) R :=
  fun m i hm => (hx m i hm).bind fun a m' i' _ hm' ha => hf a ha m' i' hm'

theorem Ran.ite {P : Prop} [Decidable P] {x y : MM α} (h : Ran B x Q) (h' : Ran B y Q) :
    Ran B (if P then x else y) Q := by split <;> assumption

theorem Ran.weaken {x : MM α} {Q' : α → Prop} (h : Ran B x Q) (h' : ∀ a, Q a → Q' a) : Ran B x Q' :=
  fun m i hm a m' i' he => ⟨(h m i hm a m' i' he).1, h' a (h m i hm a m' i' he).2⟩

theorem Ran.framed {x : MM α} (h : Framed B.top x Q) : Ran B x Q := by
  intro m i hm a m' i' he
  obtain ⟨h1, h2⟩ := h m i (Nat.le_trans B.le hm.1)
  rw [he] at h1 h2
  exact ⟨hm.kept h1, h2 a rfl⟩

/-- The same if more is known. -/
theorem Ran.more {B' : Base} {x : MM α} (h : Ran B x Q) (hB : ∀ m, From B' m → From B m)
    (hx : Framed B'.top x fun _ => True) : Ran B' x Q := fun m i hm a m' i' he =>
  ⟨(Ran.framed hx m i hm a m' i' he).1, (h m i (hB m hm) a m' i' he).2⟩

/-- The memory as it is becomes known. -/
theorem Ran.at {x : MM α} (hm : From B m) (h : Ran m.base x Q) : RanAt B m i x Q := fun a m' i' he =>
  ⟨hm.trans (h m i (.refl m) a m' i' he).1, (h m i (.refl m) a m' i' he).2⟩

end

/-! ## Reading -/

theorem Mem.Good.lt {m : Mem} (hg : m.Good) {p : Nat} {c : Cell} (hp : m.cells p = some c) : p < m.next := by
  by_cases h : p < m.next
  · exact h
  · rw [hg p (by omega)] at hp
    cases hp

/-- It is known that the slice has the element. -/
def Base.Item (B : Base) (s : Slice) (k : Nat) (x : Elem) : Prop :=
  s.arr < B.top ∧ k < s.len ∧ ∃ l, B.cells s.arr = some (.array l) ∧ l[s.off + k]? = some x

theorem Mem.Item.base {m : Mem} (hg : m.Good) {s : Slice} {x : Elem} (h : m.Item s x) : ∃ k, m.base.Item s k x := by
  obtain ⟨h1, h2, h3⟩ := h
  exact ⟨_, hg.lt h1, h2, _, h1, h3⟩

theorem Base.Item.now {B : Base} {m : Mem} (hm : From B m) {s : Slice} {k : Nat} {x : Elem} (h : B.Item s k x) :
    m.base.Item s k x := by
  obtain ⟨h1, h2, l, h3, h4⟩ := h
  exact ⟨Nat.lt_of_lt_of_le h1 (Nat.le_trans B.le hm.1), h2, l, (hm.2 _ h1).trans h3, h4⟩

section
variable {B : Base}

theorem ran_load (a : Nat) : Ran B (load a) fun c => a < B.top → B.cells a = some c := by
  intro m i hm c m' i' he
  unfold load at he
  split at he
  · rename_i d hd
    cases he
    exact ⟨hm, fun ha => by rw [← hm.2 a ha, hd]⟩
  · cases he

theorem ran_loadSlice (s : Slice) : Ran B (loadSlice s) fun l => ∀ k x, B.Item s k x → l[k]? = some x := by
  intro m i hm l m' i' he
  unfold loadSlice at he
  split at he
  · rename_i h0
    cases he
    exact ⟨hm, fun k x hx => absurd hx.2.1 (by omega)⟩
  · split at he
    · rename_i l1 hl1
      cases he
      refine ⟨hm, fun k x hx => ?_⟩
      obtain ⟨h1, h2, l2, h3, h4⟩ := hx
      rw [hm.2 _ h1, h3] at hl1
      cases hl1
      rw [List.getElem?_take, if_pos h2, List.getElem?_drop, h4]
    · cases he

theorem ran_loadElem (s : Slice) (k : Nat) : Ran B (loadElem s k) fun x => ∀ y, B.Item s k y → y = x := by
  refine (ran_loadSlice s).bind fun l hl => ?_
  split
  · rename_i x hx
    refine .pure fun y hy => ?_
    rw [hl k y hy] at hx
    exact Option.some.inj hx
  · exact .panic

theorem ran_loadDataElem (s : Slice) (k : Nat) :
    Ran B (loadDataElem s k) fun v => ∀ w, B.Item s k (.data w) → w = v := by
  refine (ran_loadElem s k).bind fun e he => ?_
  split
  · refine .pure fun w hw => ?_
    have := he _ hw
    cases this
    rfl
  · exact .panic

theorem ran_loadData (a : Nat) (path : List Nat) :
    Ran B (loadData a path) fun v => ∀ w, a < B.top → Part.dataAt B.cells a path = some w → w = v := by
  refine (ran_load a).bind fun c hc => ?_
  split
  · rename_i v hv
    refine .pure fun w ha hw => ?_
    unfold Part.dataAt at hw
    rw [hc ha] at hw
    exact Option.some.inj (hw.symm.trans hv)
  · exact .panic

end

/-! ## Types -/

/-- A slice is copied: the new one has the same elements. -/
theorem ran_copySlice {β : Type} {B : Base} {s : Slice} {F : Slice → MM β} {R : β → Prop}
    (h : ∀ m r, From B m → (∀ k x, B.Item s k x → m.base.Item r k x) → Ran m.base (F r) R) :
    Ran B (copySlice s >>= F) R := by
  intro m i hm
  have h1 : RanAt B m i (copySlice s) fun _ => True :=
    fun a m' i' he => ⟨(Ran.framed (framed_copySlice B.top s) m i hm a m' i' he).1, trivial⟩
  refine h1.bind fun r m' i' he hm' _ => Ran.at hm' (h m' r hm' fun k x hx => ?_)
  unfold copySlice at he
  rw [MM.bind_apply] at he
  rcases hl : loadSlice s m i with ⟨l | _ | _, m1, i1⟩
  · rw [hl] at he
    have hlk := (ran_loadSlice s m i hm l m1 i1 hl).2 k x hx
    have : (Outcome.ok (⟨m1.next, 0, s.len⟩ : Slice), m1.after (.array l), i1) = (.ok r, m', i') := he
    cases this
    refine ⟨Nat.lt_succ_self _, hx.2.1, l, ?_, by simpa using hlk⟩
    simp [Mem.base, Mem.after]
  · rw [hl] at he
    cases he
  · rw [hl] at he
    cases he

section
variable {B : Base} {f : Elem → MM (Option Elem)} {E : Elem → Prop}

theorem ran_rangeLoop {s : Slice} (hf : ∀ x, Ran B (f x) fun _ => E x) :
    ∀ n idx ret, (∀ r, ret = some r → B.top ≤ r.arr) → Ran B (rangeLoop f s n idx ret) fun _ =>
      ∀ k x, idx ≤ k → k < idx + n → B.Item s k x → E x
  | 0, idx, _, _ => .pure fun k x h1 h2 => absurd h1 (by omega)
  | n + 1, idx, ret, h => by
    refine (ran_loadElem s idx).bind fun x hx => (hf x).bind fun y hy => ?_
    have here : (∀ k x, idx + 1 ≤ k → k < idx + 1 + n → B.Item s k x → E x) →
        ∀ k x, idx ≤ k → k < idx + (n + 1) → B.Item s k x → E x := by
      intro h k w h1 h2 hs
      by_cases hk : k = idx
      · subst hk
        rw [hx w hs]
        exact hy
      · exact h k w (by omega) (by omega) hs
    split
    · exact (ran_rangeLoop hf n (idx + 1) ret h).weaken fun _ => here
    · exact (Ran.framed (framed_orCopy s ret h)).bind fun r hr => (Ran.framed (framed_storeElem hr idx _)).bind fun _ _ =>
        (ran_rangeLoop hf n (idx + 1) (some r) fun r' h' => by
          cases h'
          exact hr).weaken fun _ => here

theorem ran_rangeCopy {s : Slice} (hf : ∀ x, Ran B (f x) fun _ => E x) :
    Ran B (rangeCopy f s) fun _ => ∀ k x, B.Item s k x → E x := by
  refine (ran_rangeLoop hf s.len 0 none (by simp)).bind fun r hr => ?_
  split <;> exact .pure fun k x hx => hr k x (by omega) (by have := hx.2.1; omega) hx

end

section
variable {B : Base} {q : MType → MM MType} {E : MType → Prop} (hq : ∀ t, Ran B (q t) fun _ => E t)
include hq

theorem ran_qualifyArgsM (s : Slice) :
    Ran B (qualifyArgsM q s) fun _ => ∀ k n t, B.Item s k (.arg n t) → E t := by
  refine (ran_rangeCopy (E := fun x => ∀ n t, x = .arg n t → E t) fun x => ?_).weaken
    fun _ h k n t hx => h k _ hx n t rfl
  split
  · rename_i name t
    refine (hq _).bind fun _ ht => ?_
    have : ∀ n t', Elem.arg name t = .arg n t' → E t' := fun n t' h => by
      cases h
      exact ht
    exact .ite (.pure this) (.pure this)
  · exact .panic

theorem ran_qualifyFieldsM (s : Slice) :
    Ran B (qualifyFieldsM q s) fun _ => ∀ k n t tag, B.Item s k (.field n t tag) → E t := by
  refine (ran_rangeCopy (E := fun x => ∀ n t tag, x = .field n t tag → E t) fun x => ?_).weaken
    fun _ h k n t tag hx => h k _ hx n t tag rfl
  split
  · rename_i name t tag
    refine (hq _).bind fun _ ht => ?_
    have : ∀ n t' tag', Elem.field name t tag = .field n t' tag' → E t' := fun n t' tag' h => by
      cases h
      exact ht
    exact .ite (.pure this) (.pure this)
  · exact .panic

/-- The types in the signature that is at `p` are reached. -/
theorem ran_qualifySignatureM (hqf : ∀ b t, Framed b (q t) fun _ => True) {m : Mem} (hm : From B m) {p : Nat}
    {s : MSig} (hp : m.cells p = some (.sig s)) (hlt : p < m.next) (i : Imports) :
    RanAt B m i (qualifySignatureM q p) fun _ =>
      ∀ k n t, B.Item s.args k (.arg n t) ∨ B.Item s.results k (.arg n t) → E t := by
  have hB : ∀ m', From m.base m' → From B m' := fun m' h => hm.trans h
  have hq' : ∀ t, Ran m.base (q t) fun _ => E t := fun t => (hq t).more hB (hqf _ t)
  have hs : Ran m.base (loadSig p) fun s' => s' = s := by
    refine (ran_load p).bind fun c hc => ?_
    have hc' := (hc hlt).symm.trans hp
    cases hc'
    exact .pure rfl
  refine Ran.at hm ?_
  refine hs.bind fun s1 h1 => (ran_qualifyArgsM hq' s1.args).bind fun args ha => hs.bind fun s2 h2 =>
    (ran_qualifyArgsM hq' s2.results).bind fun results hr => hs.bind fun s3 h3 => ?_
  subst h1 h2
  have all : ∀ k n t, B.Item s2.args k (.arg n t) ∨ B.Item s2.results k (.arg n t) → E t := by
    rintro k n t (h | h)
    · exact ha k n t (h.now hm)
    · exact hr k n t (h.now hm)
  exact .ite ((Ran.framed (framed_alloc _ _)).weaken fun _ _ => all) (.pure all)

theorem ran_qualifyMethodsM (hqf : ∀ b t, Framed b (q t) fun _ => True) (s : Slice) :
    Ran B (qualifyMethodsM q s) fun _ => ∀ j n sg, B.Item s j (.method n sg) →
      ∀ k n t, B.Item sg.args k (.arg n t) ∨ B.Item sg.results k (.arg n t) → E t := by
  intro m i hm
  refine RanAt.bind (Q := fun p => B.top ≤ p) (Ran.framed (framed_alloc _ _) m i hm) fun p m1 i1 he hm1 hp => ?_
  have hlt : p < m1.next := by
    have : (Outcome.ok m.next, m.after _, i) = (.ok p, m1, i1) := he
    cases this
    exact Nat.lt_succ_self _
  let B' : Base := ⟨B.cells, B.top, m1.next, Nat.le_trans B.le hm1.1⟩
  have hB' : ∀ m', From B' m' → From B m' := fun m' h => ⟨Nat.le_trans hm1.1 h.1, h.2⟩
  have key : Ran B' (rangeCopy (fun
      | .method name sig => do
        store p (.sig sig)
        let ns ← qualifySignatureM q p
        if ns ≠ p then do
          let s ← loadSig ns
          pure (some (.method name s))
        else pure none
      | _ => panic) s) fun _ => ∀ j x, B'.Item s j x → ∀ n sg, x = .method n sg →
        ∀ k n t, B.Item sg.args k (.arg n t) ∨ B.Item sg.results k (.arg n t) → E t := by
    refine ran_rangeCopy fun x => ?_
    split
    · rename_i name sig
      intro m2 i2 hm2
      refine (Ran.framed (B := B') (framed_store hp _) m2 i2 hm2).bind fun _ m3 i3 he3 hm3 _ => ?_
      have : (Outcome.ok (), m2.put p (.sig sig), i2) = (.ok (), m3, i3) := he3
      cases this
      have hq' : ∀ t, Ran B' (q t) fun _ => E t := fun t => (hq t).more hB' (hqf _ t)
      refine (ran_qualifySignatureM hq' hqf hm3 (p := p) (s := sig) (by simp [Mem.put])
        (Nat.lt_of_lt_of_le hlt hm3.1) i2).bind fun ns m4 i4 _ hm4 hall => ?_
      have done : ∀ n sg, Elem.method name sig = .method n sg →
          ∀ k n t, B.Item sg.args k (.arg n t) ∨ B.Item sg.results k (.arg n t) → E t := fun n sg h => by
        cases h
        exact hall
      exact Ran.ite ((Ran.framed (framed_loadSig _ _)).bind fun _ _ => .pure done) (.pure done) m4 i4 hm4
    · exact .panic
  intro a m' i' he'
  obtain ⟨h1, h2⟩ := key m1 i1 ⟨Nat.le_refl _, hm1.2⟩ a m' i' he'
  exact ⟨hB' _ h1, fun j n sg hx => h2 j _ hx n sg rfl⟩

end

theorem Mem.Ends.sig {m : Mem} (hg : m.Good) {s : MSig}
    (h : ∀ k n t, m.base.Item s.args k (.arg n t) ∨ m.base.Item s.results k (.arg n t) → m.Ends (.type t)) :
    m.Ends (.sig s) := ⟨_, fun w hw => by
  cases hw with
  | arg hx =>
    obtain ⟨k, hk⟩ := hx.base hg
    exact h k _ _ (.inl hk)
  | result hx =>
    obtain ⟨k, hk⟩ := hx.base hg
    exact h k _ _ (.inr hk)⟩

theorem ran_qualifyTypeM {m0 : Mem} (hg : m0.Good) (r : Bool) : ∀ (fuel : Nat) (t : MType),
    Ran m0.base (qualifyTypeM r fuel t) fun _ => m0.Ends (.type t)
  | 0, _ => .hang
  | fuel + 1, t => by
    have hq := ran_qualifyTypeM hg r fuel
    have hqf : ∀ b t, Framed b (qualifyTypeM r fuel t) fun _ => True := fun b => framed_qualifyTypeM b r fuel
    have any : Ran m0.base (qualifyTypeM r (fuel + 1) t) fun _ => True := .framed (framed_qualifyTypeM _ _ _ _)
    cases t with
    | nil => exact any.weaken fun _ _ => ⟨_, fun w hw => by cases hw⟩
    | basic k => exact any.weaken fun _ _ => ⟨_, fun w hw => by cases hw⟩
    | named p => exact any.weaken fun _ _ => ⟨_, fun w hw => by cases hw⟩
    | ptr e =>
      refine (hq e).bind fun _ he => ?_
      have : m0.Ends (.type (.ptr e)) := ⟨_, fun w hw => by cases hw; exact he⟩
      exact .ite (.ite .panic (.pure this)) (.pure this)
    | slice e =>
      refine (hq e).bind fun _ he => ?_
      have : m0.Ends (.type (.slice e)) := ⟨_, fun w hw => by cases hw; exact he⟩
      exact .ite (.ite .panic (.pure this)) (.pure this)
    | array e n =>
      refine (hq e).bind fun _ he => ?_
      have : m0.Ends (.type (.array e n)) := ⟨_, fun w hw => by cases hw; exact he⟩
      exact .ite (.ite .panic (.pure this)) (.pure this)
    | chan e d =>
      refine (hq e).bind fun _ he => ?_
      have : m0.Ends (.type (.chan e d)) := ⟨_, fun w hw => by cases hw; exact he⟩
      exact .ite (.ite .panic (.pure this)) (.pure this)
    | map e k =>
      refine (hq k).bind fun _ hk => (hq e).bind fun _ he => ?_
      have : m0.Ends (.type (.map e k)) := ⟨_, fun w hw => by
        cases hw
        · exact he
        · exact hk⟩
      exact .ite (.ite .panic (.pure this)) (.pure this)
    | func p =>
      rw [qualifyTypeM]
      intro m i hm
      by_cases hp : ∃ s, m0.cells p = some (.sig s)
      · obtain ⟨s, hs⟩ := hp
        have hlt := hg.lt hs
        refine (ran_qualifySignatureM hq hqf hm ((hm.2 p hlt).trans hs) (Nat.lt_of_lt_of_le hlt hm.1) i).bind
          fun np m1 i1 _ hm1 hall => ?_
        have : m0.Ends (.type (.func p)) := ⟨_, fun w hw => by
          cases hw with
          | func h =>
            rw [hs] at h
            cases h
            exact Mem.Ends.sig hg hall⟩
        exact Ran.ite ((Ran.framed (framed_funcTypeFromSigM _ np)).weaken fun _ _ => this) (.pure this) m1 i1 hm1
      · have : m0.Ends (.type (.func p)) := ⟨_, fun w hw => by
          cases hw with
          | func h => exact absurd ⟨_, h⟩ hp⟩
        have := any.weaken (Q' := fun _ => m0.Ends (.type (.func p))) (fun _ _ => this) m i hm
        rw [qualifyTypeM] at this
        exact this
    | struct p =>
      refine (ran_load p).bind fun c hc => ?_
      split
      · rename_i fields
        refine ran_copySlice fun m1 fs hm1 hfs => ?_
        refine (ran_qualifyFieldsM (fun t => (hq t).more (fun m' h => hm1.trans h) (hqf _ t)) fs).bind fun nf hnf => ?_
        have : m0.Ends (.type (.struct p)) := ⟨_, fun w hw => by
          cases hw with
          | fieldType h1 h2 =>
            have := (hc (hg.lt h1)).symm.trans h1
            cases this
            obtain ⟨k, hk⟩ := h2.base hg
            exact hnf k _ _ _ (hfs k _ hk)⟩
        exact .ite ((Ran.framed (framed_alloc _ _)).bind fun _ _ => .pure this) (.pure this)
      · exact .panic
    | interface p =>
      refine (ran_load p).bind fun c hc => ?_
      split
      · rename_i methods embeds
        refine (Ran.framed (framed_copySlice _ _)).bind fun es _ =>
          (Ran.framed (framed_qualifySymbolsM _ r es)).bind fun ne _ => ran_copySlice fun m1 ms hm1 hms => ?_
        refine (ran_qualifyMethodsM (fun t => (hq t).more (fun m' h => hm1.trans h) (hqf _ t)) hqf ms).bind
          fun nm hnm => ?_
        have : m0.Ends (.type (.interface p)) := ⟨_, fun w hw => by
          cases hw with
          | methodSig h1 h2 =>
            have := (hc (hg.lt h1)).symm.trans h1
            cases this
            obtain ⟨k, hk⟩ := h2.base hg
            exact Mem.Ends.sig hg fun j n t h => hnm k _ _ (hms k _ hk) j n t (h.imp (·.now hm1) (·.now hm1))⟩
        exact .ite ((Ran.framed (framed_alloc _ _)).bind fun _ _ => .pure this) (.pure this)
      · exact .panic

/-! ## The loops -/

section
variable {m0 : Mem} {B : Base} {shape : Shape} {addr : Bool} {get : Nat → MM DVal} {q : DVal → MM DRes}

theorem ran_partsLoop {S : Nat → DVal → Prop} (hget : ∀ k, Framed B.top (get k) fun _ => True)
    (hread : ∀ k, Ran B (get k) fun v => ∀ w, S k w → w = v)
    (hq : ∀ v, Ran B (q v) fun _ => m0.Ends (.data v)) (total : Nat) :
    ∀ n idx new, (∀ a, new = some a → B.top ≤ a) → Ran B (partsLoop shape addr get q total n idx new) fun _ =>
      ∀ k w, idx ≤ k → k < idx + n → S k w → m0.Ends (.data w)
  | 0, idx, _, _ => .pure fun k w h1 h2 => absurd h1 (by omega)
  | n + 1, idx, new, hn => by
    refine .ite .panic ((hread idx).bind fun v hv => (hq v).bind fun r hr => ?_)
    have here : (∀ k w, idx + 1 ≤ k → k < idx + 1 + n → S k w → m0.Ends (.data w)) →
        ∀ k w, idx ≤ k → k < idx + (n + 1) → S k w → m0.Ends (.data w) := by
      intro h k w h1 h2 hs
      by_cases hk : k = idx
      · subst hk
        rw [hv w hs]
        exact hr
      · exact h k w (by omega) (by omega) hs
    have next : ∀ a, B.top ≤ a → Ran B (partsLoop shape addr get q total n (idx + 1) (some a)) fun _ =>
        ∀ k w, idx ≤ k → k < idx + (n + 1) → S k w → m0.Ends (.data w) :=
      fun a ha => (ran_partsLoop hget hread hq total n (idx + 1) (some a) fun a' h' => by
        cases h'
        exact ha).weaken fun _ => here
    cases new with
    | some a => exact (Ran.framed (framed_setRes (hn a rfl) _ _ _)).bind fun _ _ => next a (hn a rfl)
    | none =>
      exact .ite (.ite ((Ran.framed (framed_alloc _ _)).bind fun a ha =>
        (Ran.framed (framed_copyParts hget ha idx 0)).bind fun _ _ =>
        (Ran.framed (framed_setRes ha _ _ _)).bind fun _ _ => next a ha) .panic)
        ((ran_partsLoop hget hread hq total n (idx + 1) none fun _ h => by cases h).weaken fun _ => here)

theorem ran_entriesLoop (hq : ∀ v, Ran B (q v) fun _ => m0.Ends (.data v)) :
    ∀ es seen new, (∀ a, new = some a → B.top ≤ a) → Ran B (entriesLoop q es seen new) fun _ =>
      ∀ e ∈ es, m0.Ends (.data e.1) ∧ m0.Ends (.data e.2)
  | [], _, _, _ => .pure fun e he => by cases he
  | (k, v) :: es, seen, new, hn => by
    refine (hq k).bind fun rk hk => (hq v).bind fun rv hv => ?_
    have here : (∀ e ∈ es, m0.Ends (.data e.1) ∧ m0.Ends (.data e.2)) → ∀ e ∈ (k, v) :: es, m0.Ends (.data e.1) ∧ m0.Ends (.data e.2) := by
      intro h e he
      rcases List.mem_cons.1 he with rfl | he
      · exact ⟨hk, hv⟩
      · exact h e he
    have next : ∀ a seen, B.top ≤ a → Ran B (entriesLoop q es seen (some a)) fun _ =>
        ∀ e ∈ (k, v) :: es, m0.Ends (.data e.1) ∧ m0.Ends (.data e.2) :=
      fun a seen ha => (ran_entriesLoop hq es seen (some a) fun a' h' => by
        cases h'
        exact ha).weaken fun _ => here
    cases new with
    | some a => exact (Ran.framed (framed_setMapRes (hn a rfl) _ _)).bind fun _ _ => next a seen (hn a rfl)
    | none =>
      exact .ite ((Ran.framed (framed_alloc _ _)).bind fun a ha => (Ran.framed (framed_copyEntries ha seen)).bind fun _ _ =>
        (Ran.framed (framed_setMapRes ha _ _)).bind fun _ _ => next a [] ha)
        ((ran_entriesLoop hq es _ none fun _ h => by cases h).weaken fun _ => here)

end

theorem ran_partOf {B : Base} (l : List DVal) (k : Nat) : Ran B (partOf l k) fun v => ∀ w, l[k]? = some w → w = v := by
  unfold partOf
  split
  · rename_i v hv
    exact .pure fun w hw => by
      rw [hv] at hw
      exact (Option.some.inj hw).symm
  · exact .panic

/-! ## The function -/

theorem Mem.Ends.none {m : Mem} {x : Node} (h : ∀ y, ¬ m.Holds x y) : m.Ends x := ⟨_, fun y hy => absurd hy (h y)⟩

theorem ran_qualifyD {m0 : Mem} (hg : m0.Good) (h : Heap) : ∀ (fuel : Nat) (addr : Bool) (d : DVal),
    Ran m0.base (qualifyD h fuel addr d) fun _ => m0.Ends (.data d)
  | 0, _, _ => .hang
  | fuel + 1, addr, d => by
    have hq := ran_qualifyD hg h fuel
    have hqt := ran_qualifyTypeM hg true fuel
    have hqf : ∀ b t, Framed b (qualifyTypeM true fuel t) fun _ => True := fun b => framed_qualifyTypeM b true fuel
    have any : Ran m0.base (qualifyD h (fuel + 1) addr d) fun _ => True := .framed (framed_qualifyD _ _ _ _ _)
    cases d with
    | iface acc v =>
      have hin : ∀ v, (∀ t, v ≠ .typeName t) → Ran m0.base (do
          let r ← qualifyD h fuel false v
          if r.changed then pure { r with val := .iface acc r.val, retyped := false }
          else pure (unchanged (.iface acc v))) fun _ => m0.Ends (.data (.iface acc v)) := by
        intro v hv
        refine (hq false v).bind fun _ he => ?_
        have : m0.Ends (.data (.iface acc v)) := ⟨_, fun w hw => by
          cases hw with
          | iface => exact he
          | typeName => exact absurd rfl (hv _)⟩
        exact .ite (.pure this) (.pure this)
      have leaf : ∀ v, (∀ y, ¬ m0.Holds (.data v) y) → (∀ t, v ≠ .typeName t) → m0.Ends (.data (.iface acc v)) :=
        fun v h1 h2 => ⟨_, fun w hw => by
          cases hw with
          | iface => exact Mem.Ends.none h1
          | typeName => exact absurd rfl (h2 _)⟩
      cases v with
      | typeName t =>
        refine (hqt t).bind fun _ ht => ?_
        have : m0.Ends (.data (.iface acc (.typeName t))) := ⟨_, fun w hw => by
          cases hw with
          | iface => exact Mem.Ends.none fun y hy => by cases hy
          | typeName => exact ht⟩
        exact .ite (.pure this) (.pure this)
      | reflectType _ t => exact any.weaken fun _ _ => leaf _ (fun y hy => by cases hy) (fun t h => by cases h)
      | goType _ t => exact any.weaken fun _ _ => leaf _ (fun y hy => by cases hy) (fun t h => by cases h)
      | goObject _ t => exact any.weaken fun _ _ => leaf _ (fun y hy => by cases hy) (fun t h => by cases h)
      | goPackage _ t => exact any.weaken fun _ _ => leaf _ (fun y hy => by cases hy) (fun t h => by cases h)
      | _ => exact hin _ (fun t h => by cases h)
    | signature s =>
      rw [qualifyD]
      · intro m i hm
        refine RanAt.bind (Q := fun _ => True) (fun a m' i' he => ⟨(Ran.framed (framed_alloc _ _) m i hm a m' i' he).1,
          trivial⟩) fun p m1 i1 he hm1 _ => ?_
        have : (Outcome.ok m.next, m.after (.sig s), i) = (.ok p, m1, i1) := he
        cases this
        refine (ran_qualifySignatureM hqt hqf hm1 (s := s) (by simp [Mem.after]) (Nat.lt_succ_self _) i).bind
          fun ns m2 i2 _ hm2 hall => ?_
        have : m0.Ends (.data (.signature s)) := ⟨_, fun w hw => by
          cases hw
          exact Mem.Ends.sig hg hall⟩
        exact Ran.ite (Q := fun _ => m0.Ends (.data (.signature s)))
          ((Ran.framed (framed_loadSig _ _)).bind fun _ _ => .pure this) (.pure this) m2 i2 hm2
    | method x =>
      rw [qualifyD]
      · intro m i hm
        refine RanAt.bind (Q := fun _ => True) (fun a m' i' he => ⟨(Ran.framed (framed_alloc _ _) m i hm a m' i' he).1,
          trivial⟩) fun p m1 i1 he hm1 _ => ?_
        have : (Outcome.ok m.next, m.after (.sig x.sig), i) = (.ok p, m1, i1) := he
        cases this
        refine RanAt.bind (Q := fun p => m0.base.top ≤ p) (Ran.framed (framed_alloc _ _) _ i hm1)
          fun p' m1 i1 he' hm1 hp' => ?_
        have : (Outcome.ok (m.next + 1), (m.after (.sig x.sig)).after (.data (.method x)), i) = (.ok p', m1, i1) := he'
        cases this
        refine (ran_qualifySignatureM hqt hqf hm1 (s := x.sig) (by simp [Mem.after])
          (by simp only [Mem.after]; omega) i).bind fun ns m2 i2 _ hm2 hall => ?_
        have : m0.Ends (.data (.method x)) := ⟨_, fun w hw => by
          cases hw
          exact Mem.Ends.sig hg hall⟩
        exact Ran.ite (Q := fun _ => m0.Ends (.data (.method x))) ((Ran.framed (framed_loadSig _ _)).bind fun _ _ =>
          (Ran.framed (framed_store hp' _)).bind fun _ _ => .pure this) (.pure this) m2 i2 hm2
    | ptr a path =>
      refine (ran_loadData a path).bind fun v hv => (hq true v).bind fun r hr => ?_
      have : m0.Ends (.data (.ptr a path)) := ⟨_, fun w hw => by
        cases hw with
        | ptr hw =>
          rename_i w
          have ha : a < m0.next := by
            unfold Part.dataAt at hw
            split at hw
            · rename_i c hc
              exact hg.lt hc
            · cases hw
          rw [hv w ha hw]
          exact hr⟩
      refine .ite ?_ (.pure this)
      split
      · exact .pure this
      · exact (Ran.framed (framed_alloc _ _)).bind fun _ hp => (Ran.framed (framed_store hp _)).bind fun _ _ => .pure this
    | struct fs =>
      refine (ran_partsLoop (m0 := m0) (S := fun k w => (fs.map (·.2))[k]? = some w) (framed_partOf _ _) (ran_partOf _)
        (hq addr) _ _ _ none fun _ h => by cases h).bind fun o ho => ?_
      have : m0.Ends (.data (.struct fs)) := ⟨_, fun w hw => by
        cases hw with
        | field hw =>
          obtain ⟨k, hk, hw⟩ := List.mem_iff_getElem.1 hw
          refine ho k _ (by omega) (by simpa using hk) ?_
          simp [hk, hw]⟩
      split
      · exact (Ran.framed (framed_loadData _ _ _)).bind fun _ _ => .pure this
      · exact .pure this
    | array vs =>
      refine (ran_partsLoop (m0 := m0) (S := fun k w => vs[k]? = some w) (framed_partOf _ _) (ran_partOf _)
        (hq addr) _ _ _ none fun _ h => by cases h).bind fun o ho => ?_
      have : m0.Ends (.data (.array vs)) := ⟨_, fun w hw => by
        cases hw with
        | elem hw =>
          obtain ⟨k, hk, hw⟩ := List.mem_iff_getElem.1 hw
          exact ho k _ (by omega) (by omega) (by simp [hk, hw])⟩
      split
      · exact (Ran.framed (framed_loadData _ _ _)).bind fun _ _ => .pure this
      · exact .pure this
    | slice s =>
      refine (ran_partsLoop (m0 := m0) (S := fun k w => m0.base.Item s k (.data w))
        (framed_loadDataElem _ _) (ran_loadDataElem s) (hq true) _ _ _ none fun _ h => by cases h).bind fun o ho => ?_
      have : m0.Ends (.data (.slice s)) := ⟨_, fun w hw => by
        cases hw with
        | item hx =>
          obtain ⟨k, hk⟩ := hx.base hg
          exact ho k _ (by omega) (by have := hk.2.1; omega) hk⟩
      split <;> exact .pure this
    | map a =>
      refine (ran_load a).bind fun c hc => ?_
      split
      · rename_i es
        refine (ran_entriesLoop (m0 := m0) (hq false) _ _ none fun _ h => by cases h).bind fun o ho => ?_
        have : m0.Ends (.data (.map a)) := ⟨_, fun w hw => by
          cases hw with
          | key h1 h2 =>
            have := (hc (hg.lt h1)).symm.trans h1
            cases this
            exact (ho _ h2).1
          | value h1 h2 =>
            have := (hc (hg.lt h1)).symm.trans h1
            cases this
            exact (ho _ h2).2⟩
        split <;> exact .pure this
      · exact .panic
    | _ => exact any.weaken fun _ _ => ⟨_, fun w hw => by cases hw⟩

/-- `QualifyTemplateData` qualifies the data in an interface. -/
theorem qualifyTemplateDataM_eq (h : Heap) (fuel : Nat) (v : DVal) (m : Mem) (i : Imports) :
    qualifyTemplateDataM h fuel v m i =
      (qualifyD h fuel true (.iface acceptsAll v) >>= fun r => (pure r.val.inIface : MM DVal))
        (m.after (.array [.data (.iface acceptsAll v)])) i := by
  have hl : loadDataElem ⟨m.next, 0, 1⟩ 0 (m.after (.array [.data (.iface acceptsAll v)])) i =
      (.ok (.iface acceptsAll v), m.after (.array [.data (.iface acceptsAll v)]), i) := by
    simp only [loadDataElem, loadElem, loadSlice, MM.bind_apply, Mem.after]
    simp
    rfl
  rw [qualifyTemplateDataM, MM.bind_apply, alloc_apply]
  dsimp only
  rw [MM.bind_apply, hl]

theorem From.after (m : Mem) (c : Cell) : From m.base (m.after c) := by
  refine ⟨Nat.le_succ _, fun p hp => ?_⟩
  have : p ≠ m.next := by have : p < m.next := hp; omega
  simp [Mem.after, Mem.base, this]

/-- `QualifyTemplateData` as a whole. -/
theorem ends_of_qualified {m m' : Mem} (hg : m.Good) {h : Heap} {fuel : Nat} {v v' : DVal} {i j : Imports}
    (hq : qualifyTemplateDataM h fuel v m i = (.ok v', m', j)) : m.Ends (.data (.iface acceptsAll v)) := by
  rw [qualifyTemplateDataM_eq] at hq
  exact (((ran_qualifyD hg h fuel true _).bind (R := fun _ => m.Ends (.data (.iface acceptsAll v)))
    fun _ he => .pure he) _ i (.after m _) _ _ _ hq).2

end Gopoet
