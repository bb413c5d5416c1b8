import Verif.Proof.MemoryRefine
import Verif.Proof.ImportsLemmas
/-!
# Qualification in memory computes what qualification of trees computes (types and signatures)
-/

namespace Gopoet
open MM Imports

/-- Nothing. -/
abbrev noAddr : Nat → Prop := fun _ => False

theorem Each.length {α : Type} {R : α → Elem → Prop} : ∀ {l : List α} {l' : List Elem}, Each R l l' →
    l.length = l'.length
  | _, _, .nil => rfl
  | _, _, .cons _ t => by simp [t.length]

theorem listQ_length {α : Type} {g : α → IM (α × Bool)} : ∀ (l : List α) {i i' : Imports} {r : List α × Bool},
    listQ g l i = (.ok r, i') → r.1.length = l.length
  | [], _, _, _, h => by
    cases h
    rfl
  | x :: l, i, i', r, h => by
    rw [listQ, IM.bind_apply] at h
    rcases hg : g x i with ⟨y | _ | _, i1⟩
    · rw [hg] at h
      dsimp only at h
      rw [IM.bind_apply] at h
      rcases hl : listQ g l i1 with ⟨ys | _ | _, i2⟩
      · rw [hl] at h
        cases h
        simp [listQ_length l hl]
      · rw [hl] at h
        cases h
      · rw [hl] at h
        cases h
    · rw [hg] at h
      cases h
    · rw [hg] at h
      cases h

/-- The slice is the given one, or one of the same length whose array is new and has no more elements (as far as the
part is concerned). -/
def Slice.From (n : Nat) (h : Part) (s s' : Slice) : Prop :=
  s' = s ∨ n ≤ s'.arr ∧ s'.len = s.len ∧ ∃ l, h s'.arr = some (.array l) ∧ l.length = s'.off + s'.len

theorem sim_rangeCopy_from {α : Type} {W : Nat → Prop} {R : Part → α → Elem → Prop}
    (mono : ∀ {h h' x e}, Part.Le h h' → R h x e → R h' x e) {f : Elem → MM (Option Elem)}
    {g : α → IM (α × Bool)} {s : Slice} {xs : List α} (hf : ∀ x ∈ xs, ElemSim W R f g x)
    {E : List Elem} {h : Part} {m : Mem} {i : Imports} (a : At h m)
    (hW : ∀ p, W p → p < m.next ∧ h p = none) (hl : h.elems s = some E) (hxs : Each (R h) xs E) :
    Sim W (rangeCopy f s) (listQ g xs) i h m fun a s' h' _ =>
      ∃ Y, h'.elems s' = some Y ∧ Each (R h') a.1 Y ∧ (s' = s ↔ a.2 = false) ∧ s.From m.next h' s' := by
  have hlen := Part.elems_length hl
  cases hxs with
  | nil =>
    have h0 : s.len = 0 := by simpa using hlen.symm
    unfold rangeCopy
    rw [h0]
    exact .pure a ⟨[], by simpa using hl, .nil, by simp, .inl rfl⟩
  | @cons x e xs E hx hxs =>
    have sim := sim_rangeLoop (R := R) (W := W) mono (f := f) (g := g) s (x :: xs) hf [] [] (e :: E) none h m i a hW hl rfl
      (.cons hx hxs) (fun _ => rfl) (fun r hr => by cases hr)
    have harr : s.arr < m.next := by
      unfold Part.elems at hl
      have h0 : s.len ≠ 0 := by
        rw [← hlen]
        simp
      rw [if_neg h0] at hl
      split at hl
      · rename_i hc
        exact a.lt _ _ hc
      · cases hl
    unfold Sim at sim ⊢
    unfold rangeCopy
    rw [MM.bind_apply]
    rw [hlen] at sim
    rcases hy : listQ g (x :: xs) i with ⟨r | _ | _, i'⟩
    · rw [hy] at sim
      obtain ⟨o, h', m', e', st, Y, hY, ho⟩ := sim
      have st : MStep W h m h' m' := st.weaken (by
        rintro p - (hw | ⟨r, hr, -⟩)
        · exact hw
        · cases hr)
      simp only [List.length_nil] at e'
      rw [e']
      cases o with
      | none =>
        obtain ⟨-, hc, rfl⟩ := ho
        exact ⟨s, h', m', rfl, st, _, Part.elems_mono st.le hl, hY, by simp [hc], .inl rfl⟩
      | some r =>
        obtain ⟨hc, hb, hr⟩ := ho
        obtain ⟨ρ, off, len⟩ := r
        have hoff := hb.off
        have hlen' := hb.len
        dsimp only at hoff hlen'
        subst hoff hlen'
        have hρ : m.next ≤ ρ := by
          rcases hr with h | h
          · cases h
          · exact h.2
        have hle : h'.Le (h'.add ρ (.array Y)) := Part.le_add _ hb.out
        have hYl : Y.length = s.len := by
          rw [← hlen, ← hY.length, listQ_length _ hy, (Each.cons hx hxs).length]
        refine ⟨⟨ρ, 0, s.len⟩, h'.add ρ (.array Y), m', rfl, ?_, Y, ?_, hY.mono fun _ _ => mono hle, ?_,
          .inr ⟨hρ, rfl, Y, by simp [Part.add], by simp [hYl]⟩⟩
        · refine ⟨st.le.trans hle, st.after.join hb.cell hb.lt, st.next, ?_, st.same⟩
          intro p hp
          have : p ≠ ρ := Nat.ne_of_lt (Nat.lt_of_lt_of_le hp hρ)
          simp only [Part.add, if_neg this]
          exact st.old p hp
        · rw [← hYl]
          exact elems_whole _ _ _
        · have : r.2 = true := by simpa using hc
          simp only [this, Bool.true_eq_false, iff_false]
          intro he
          rw [← he] at harr
          dsimp only at harr
          omega
    · rw [hy] at sim
      obtain ⟨m', e'⟩ := sim
      simp only [List.length_nil] at e'
      exact ⟨m', by rw [e']⟩
    · rw [hy] at sim
      obtain ⟨m', e'⟩ := sim
      simp only [List.length_nil] at e'
      exact ⟨m', by rw [e']⟩

theorem sim_rangeCopy {α : Type} {W : Nat → Prop} {R : Part → α → Elem → Prop}
    (mono : ∀ {h h' x e}, Part.Le h h' → R h x e → R h' x e) {f : Elem → MM (Option Elem)}
    {g : α → IM (α × Bool)} {s : Slice} {xs : List α} (hf : ∀ x ∈ xs, ElemSim W R f g x)
    {E : List Elem} {h : Part} {m : Mem} {i : Imports} (a : At h m)
    (hW : ∀ p, W p → p < m.next ∧ h p = none) (hl : h.elems s = some E) (hxs : Each (R h) xs E) :
    Sim W (rangeCopy f s) (listQ g xs) i h m fun a s' h' _ =>
      ∃ Y, h'.elems s' = some Y ∧ Each (R h') a.1 Y ∧ (s' = s ↔ a.2 = false) :=
  (sim_rangeCopy_from (R := R) mono hf a hW hl hxs).mono (fun _ _ hp => hp) fun _ _ _ _ _ ⟨Y, h1, h2, h3, _⟩ => ⟨Y, h1, h2, h3⟩

/-! ## Elements -/

/-- The element is the argument. -/
def ArgAt (h : Part) (a : ArgType) : Elem → Prop
  | .arg n v => n = a.name ∧ h.Type a.type v
  | _ => False
/-- The element is the field. -/
def FieldAt (h : Part) (a : FieldType) : Elem → Prop
  | .field n v tag => n = a.name ∧ tag = a.tag ∧ h.Type a.type v
  | _ => False
/-- The element is the method. -/
def MethodAt (h : Part) (a : MethodType) : Elem → Prop
  | .method n s => n = a.name ∧ h.Sig a.signature s
  | _ => False
/-- The element is the symbol. -/
def SymAt (_ : Part) (s : Symbol) (e : Elem) : Prop := e = .sym s

theorem args_iff (h : Part) : ∀ (l : List ArgType) (l' : List Elem), h.Args l l' ↔ Each (ArgAt h) l l'
  | [], [] => by simp [Part.Args, Each.nil]
  | [], _ :: _ => ⟨fun hh => by simp [Part.Args] at hh, fun hh => by cases hh⟩
  | ⟨_, _⟩ :: _, [] => ⟨fun hh => by simp [Part.Args] at hh, fun hh => by cases hh⟩
  | ⟨n, t⟩ :: l, e :: l' => by
    constructor
    · intro hh
      cases e with
      | arg n' v =>
        rw [Part.Args] at hh
        exact .cons ⟨hh.1, hh.2.1⟩ ((args_iff h l l').1 hh.2.2)
      | _ => simp [Part.Args] at hh
    · intro hh
      cases hh with
      | cons h1 h2 =>
        cases e with
        | arg n' v =>
          rw [Part.Args]
          exact ⟨h1.1, h1.2, (args_iff h l l').2 h2⟩
        | _ => exact h1.elim

theorem fields_iff (h : Part) : ∀ (l : List FieldType) (l' : List Elem), h.Fields l l' ↔ Each (FieldAt h) l l'
  | [], [] => by simp [Part.Fields, Each.nil]
  | [], _ :: _ => ⟨fun hh => by simp [Part.Fields] at hh, fun hh => by cases hh⟩
  | ⟨_, _, _⟩ :: _, [] => ⟨fun hh => by simp [Part.Fields] at hh, fun hh => by cases hh⟩
  | ⟨n, t, tag⟩ :: l, e :: l' => by
    constructor
    · intro hh
      cases e with
      | field n' v tag' =>
        rw [Part.Fields] at hh
        exact .cons ⟨hh.1, hh.2.1, hh.2.2.1⟩ ((fields_iff h l l').1 hh.2.2.2)
      | _ => simp [Part.Fields] at hh
    · intro hh
      cases hh with
      | cons h1 h2 =>
        cases e with
        | field n' v tag' =>
          rw [Part.Fields]
          exact ⟨h1.1, h1.2.1, h1.2.2, (fields_iff h l l').2 h2⟩
        | _ => exact h1.elim

theorem methods_iff (h : Part) : ∀ (l : List MethodType) (l' : List Elem), h.Methods l l' ↔ Each (MethodAt h) l l'
  | [], [] => by simp [Part.Methods, Each.nil]
  | [], _ :: _ => ⟨fun hh => by simp [Part.Methods] at hh, fun hh => by cases hh⟩
  | ⟨_, _⟩ :: _, [] => ⟨fun hh => by simp [Part.Methods] at hh, fun hh => by cases hh⟩
  | ⟨n, sig⟩ :: l, e :: l' => by
    constructor
    · intro hh
      cases e with
      | method n' v =>
        rw [Part.Methods] at hh
        exact .cons ⟨hh.1, hh.2.1⟩ ((methods_iff h l l').1 hh.2.2)
      | _ => simp [Part.Methods] at hh
    · intro hh
      cases hh with
      | cons h1 h2 =>
        cases e with
        | method n' v =>
          rw [Part.Methods]
          exact ⟨h1.1, h1.2, (methods_iff h l l').2 h2⟩
        | _ => exact h1.elim

theorem syms_iff (h : Part) : ∀ (l : List Symbol) (l' : List Elem), Part.Syms l l' ↔ Each (SymAt h) l l'
  | [], [] => by simp [Part.Syms, Each.nil]
  | [], _ :: _ => ⟨fun hh => by simp [Part.Syms] at hh, fun hh => by cases hh⟩
  | _ :: _, [] => ⟨fun hh => by simp [Part.Syms] at hh, fun hh => by cases hh⟩
  | s :: l, e :: l' => by
    constructor
    · intro hh
      cases e with
      | sym s' =>
        rw [Part.Syms] at hh
        exact .cons (by rw [SymAt, hh.1]) ((syms_iff h l l').1 hh.2)
      | _ => simp [Part.Syms] at hh
    · intro hh
      cases hh with
      | cons h1 h2 =>
        rw [SymAt] at h1
        subst h1
        rw [Part.Syms]
        exact ⟨rfl, (syms_iff h l l').2 h2⟩

/-! ## Growing parts -/

mutual
theorem Part.Type.mono {h h' : Part} (le : h.Le h') : ∀ (t : TypeName) (v : MType), h.Type t v → h'.Type t v
  | .nil, v, hh => by cases v <;> simp [Part.Type] at hh ⊢
  | .basic k, v, hh => by cases v <;> simp [Part.Type] at hh ⊢; exact hh
  | .named s, v, hh => by cases v <;> simp [Part.Type] at hh ⊢; exact le.get hh
  | .ptr t, v, hh => by
    cases v <;> simp only [Part.Type] at hh ⊢
    exact Part.Type.mono le t _ hh
  | .slice t, v, hh => by
    cases v <;> simp only [Part.Type] at hh ⊢
    exact Part.Type.mono le t _ hh
  | .array t n, v, hh => by
    cases v <;> simp only [Part.Type] at hh ⊢
    exact ⟨hh.1, Part.Type.mono le t _ hh.2⟩
  | .map t k, v, hh => by
    cases v <;> simp only [Part.Type] at hh ⊢
    exact ⟨Part.Type.mono le t _ hh.1, Part.Type.mono le k _ hh.2⟩
  | .chan t d, v, hh => by
    cases v <;> simp only [Part.Type] at hh ⊢
    exact ⟨hh.1, Part.Type.mono le t _ hh.2⟩
  | .func sig, v, hh => by
    cases v <;> simp only [Part.Type] at hh ⊢
    obtain ⟨s, h1, h2⟩ := hh
    exact ⟨s, le.get h1, Part.Sig.mono le sig s h2⟩
  | .struct fields, v, hh => by
    cases v <;> simp only [Part.Type] at hh ⊢
    obtain ⟨s, l, h1, h2, h3⟩ := hh
    exact ⟨s, l, le.get h1, Part.elems_mono le h2, Part.Fields.mono le fields l h3⟩
  | .interface methods embeds, v, hh => by
    cases v <;> simp only [Part.Type] at hh ⊢
    obtain ⟨ms, es, l, l', h1, h2, h3, h4, h5⟩ := hh
    exact ⟨ms, es, l, l', le.get h1, Part.elems_mono le h2, Part.Methods.mono le methods l h3,
      Part.elems_mono le h4, h5⟩
theorem Part.Sig.mono {h h' : Part} (le : h.Le h') : ∀ (t : Signature) (v : MSig), h.Sig t v → h'.Sig t v
  | ⟨args, results, b⟩, s, hh => by
    rw [Part.Sig] at hh ⊢
    obtain ⟨h1, l, l', h2, h3, h4, h5⟩ := hh
    exact ⟨h1, l, l', Part.elems_mono le h2, Part.Args.mono le args l h3, Part.elems_mono le h4,
      Part.Args.mono le results l' h5⟩
theorem Part.Args.mono {h h' : Part} (le : h.Le h') : ∀ (t : List ArgType) (v : List Elem), h.Args t v → h'.Args t v
  | [], [], _ => by simp [Part.Args]
  | [], _ :: _, hh => by simp [Part.Args] at hh
  | ⟨_, _⟩ :: _, [], hh => by simp [Part.Args] at hh
  | ⟨n, t⟩ :: l, e :: l', hh => by
    cases e with
    | arg n' v =>
      rw [Part.Args] at hh ⊢
      exact ⟨hh.1, Part.Type.mono le t v hh.2.1, Part.Args.mono le l l' hh.2.2⟩
    | _ => simp [Part.Args] at hh
theorem Part.Fields.mono {h h' : Part} (le : h.Le h') : ∀ (t : List FieldType) (v : List Elem),
    h.Fields t v → h'.Fields t v
  | [], [], _ => by simp [Part.Fields]
  | [], _ :: _, hh => by simp [Part.Fields] at hh
  | ⟨_, _, _⟩ :: _, [], hh => by simp [Part.Fields] at hh
  | ⟨n, t, tag⟩ :: l, e :: l', hh => by
    cases e with
    | field n' v tag' =>
      rw [Part.Fields] at hh ⊢
      exact ⟨hh.1, hh.2.1, Part.Type.mono le t v hh.2.2.1, Part.Fields.mono le l l' hh.2.2.2⟩
    | _ => simp [Part.Fields] at hh
theorem Part.Methods.mono {h h' : Part} (le : h.Le h') : ∀ (t : List MethodType) (v : List Elem),
    h.Methods t v → h'.Methods t v
  | [], [], _ => by simp [Part.Methods]
  | [], _ :: _, hh => by simp [Part.Methods] at hh
  | ⟨_, _⟩ :: _, [], hh => by simp [Part.Methods] at hh
  | ⟨n, sig⟩ :: l, e :: l', hh => by
    cases e with
    | method n' s =>
      rw [Part.Methods] at hh ⊢
      exact ⟨hh.1, Part.Sig.mono le sig s hh.2.1, Part.Methods.mono le l l' hh.2.2⟩
    | _ => simp [Part.Methods] at hh
end

theorem ArgAt.mono {h h' : Part} {a : ArgType} {e : Elem} (le : h.Le h') (ha : ArgAt h a e) : ArgAt h' a e := by
  cases e with
  | arg n v => exact ⟨ha.1, ha.2.mono le _ _⟩
  | _ => exact ha
theorem FieldAt.mono {h h' : Part} {a : FieldType} {e : Elem} (le : h.Le h') (ha : FieldAt h a e) :
    FieldAt h' a e := by
  cases e with
  | field n v tag => exact ⟨ha.1, ha.2.1, ha.2.2.mono le _ _⟩
  | _ => exact ha
theorem MethodAt.mono {h h' : Part} {a : MethodType} {e : Elem} (le : h.Le h') (ha : MethodAt h a e) :
    MethodAt h' a e := by
  cases e with
  | method n s => exact ⟨ha.1, ha.2.mono le _ _⟩
  | _ => exact ha
theorem SymAt.mono {h h' : Part} {a : Symbol} {e : Elem} (_ : h.Le h') (ha : SymAt h a e) : SymAt h' a e := ha

end Gopoet
