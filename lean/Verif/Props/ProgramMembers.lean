import Verif.Props.MemberDocs
import Verif.Spec.ProgramMembers
import Verif.Props.ProgramDocs
/-!
# The members of what a program declares are documented with the comments that it gave (C78)
-/

namespace Gopoet
open Imports

/-! ### What qualification keeps -/

/-- Struct types stay struct types. -/
theorem ensureTypeImported_struct {fs : List FieldType} {u : TypeName} {i j : Imports}
    (h : ensureTypeImported (.struct fs) i = (.ok u, j)) : ∃ fs', u = .struct fs' := by
  obtain ⟨r, k, h1, h⟩ := IM.bind_eq_ok h
  obtain ⟨rfl, rfl⟩ := pure_eq_ok h
  rw [qualifyType] at h1
  obtain ⟨s, k, h2, h1⟩ := IM.bind_eq_ok h1
  dsimp only at h1
  split at h1 <;> (obtain ⟨rfl, rfl⟩ := pure_eq_ok h1; exact ⟨_, rfl⟩)

/-- Interface types stay interface types. -/
theorem ensureTypeImported_iface {ms : List MethodType} {es : List Symbol} {u : TypeName} {i j : Imports}
    (h : ensureTypeImported (.interface ms es) i = (.ok u, j)) : ∃ ms' es', u = .interface ms' es' := by
  obtain ⟨r, k, h1, h⟩ := IM.bind_eq_ok h
  obtain ⟨rfl, rfl⟩ := pure_eq_ok h
  rw [qualifyType] at h1
  obtain ⟨s, k, h2, h1⟩ := IM.bind_eq_ok h1
  obtain ⟨s', k', h3, h1⟩ := IM.bind_eq_ok h1
  dsimp only at h1
  split at h1 <;> (obtain ⟨rfl, rfl⟩ := pure_eq_ok h1; exact ⟨_, _, rfl⟩)

/-- The type specs that have struct types or interface types go on having them. -/
def BlocksKept (h h' : Heap) : Prop :=
  ∀ p t, h.types p = some t → ∃ t', h'.types p = some t' ∧
    ((∃ fs, t.underlying = .struct fs) → ∃ fs, t'.underlying = .struct fs) ∧
    ((∃ ms es, t.underlying = .interface ms es) → ∃ ms es, t'.underlying = .interface ms es)

theorem BlocksKept.refl {h h' : Heap} (ht : h'.types = h.types) : BlocksKept h h' :=
  fun p t hp => ⟨t, by rw [ht]; exact hp, id, id⟩

theorem BlocksKept.trans {a b c : Heap} (x : BlocksKept a b) (y : BlocksKept b c) : BlocksKept a c := by
  intro p t hp
  obtain ⟨t1, h1, h2, h3⟩ := x p t hp
  obtain ⟨t2, h4, h5, h6⟩ := y p t1 h1
  exact ⟨t2, h4, h5 ∘ h2, h6 ∘ h3⟩

theorem QStep.blocksKept {h i h' i'} (a : QStep h i h' i') : BlocksKept h h' := by
  cases a with
  | @type q ts u _ hq he =>
    intro p t hp
    by_cases hpq : p = q
    · subst hpq
      rw [hq] at hp; cases hp
      refine ⟨_, upd_same _ _ _, ?_, ?_⟩
      · rintro ⟨fs, h1⟩
        rw [h1] at he
        exact ensureTypeImported_struct he
      · rintro ⟨ms, es, h1⟩
        rw [h1] at he
        exact ensureTypeImported_iface he
    · exact ⟨t, by dsimp only; rw [upd_ne _ _ hpq]; exact hp, id, id⟩
  | _ => exact .refl rfl

theorem QSteps.blocksKept {h i h' i'} (a : QSteps h i h' i') : BlocksKept h h' := by
  induction a with
  | refl => exact .refl rfl
  | step _ s ih => exact ih.trans s.blocksKept

theorem renderFile_blocksKept {env : Env} {fuel : Nat} {p : Ptr} {h h' : Heap} {o : Outcome GoString}
    (hr : renderFile env fuel p h = (o, h')) : BlocksKept h h' := by
  have := renderFile_heap env fuel p h
  rw [hr] at this
  subst this
  unfold qualifyFile
  cases hf : h.files p with
  | none => exact .refl rfl
  | some file => exact (steps_fileElems fuel file.elements h file.imports).blocksKept.trans (.refl rfl)

/-! ### The declarations -/

theorem DeclaresTypes.at {cs : List BuildCall} {h : Heap} (hb : build cs {} = .ok h) {p : Ptr} {l : List Ptr}
    (hd : DeclaresTypes cs p l) : h.typeDecls p = some { types := l, comment := givenComment cs (.typeDecl p) } := by
  obtain ⟨-, -, -, ktd, -⟩ := C78_comments hb
  cases hd with
  | @decl ts g post hm =>
    obtain ⟨g1, h1, -, -, -, -, h6⟩ := hm.exec hb
    cases h1
    have h7 := h6.typeDecls g.next { types := ts } (upd_same _ _ _)
    rw [h7, ← ktd _ _ h7]
  | @added f t g post hm =>
    obtain ⟨g1, h1, -, h3, -, -, h6⟩ := hm.exec hb
    obtain ⟨g', file, m1, m2, m3, m4, m5, rfl⟩ := addElement_parts (Grown.allocTypeDecls h3 { types := [t] }).fresh h1
    have h7 := h6.typeDecls g.next { types := [t] } (by simp only; rw [m4]; exact upd_same _ _ _)
    rw [h7, ← ktd _ _ h7]; rfl

theorem DeclaresValues.at {cs : List BuildCall} {h : Heap} (hb : build cs {} = .ok h) {p : Ptr} {kind : ValueKind} {l : List Ptr}
    (hd : DeclaresValues cs p kind l) :
    h.valueDecls p = some { kind := kind, specs := l, comment := givenComment cs (.valueDecl p) } := by
  obtain ⟨-, kvd, -⟩ := C78_comments hb
  cases hd with
  | @decl kind vs g post hm =>
    obtain ⟨g1, h1, -, -, -, -, h6⟩ := hm.exec hb
    cases h1
    have h7 := h6.valueDecls g.next { kind := kind, specs := vs } (upd_same _ _ _)
    rw [h7, ← kvd _ _ h7]
  | @added f kind v g post hm =>
    obtain ⟨g1, h1, -, h3, -, -, h6⟩ := hm.exec hb
    obtain ⟨g', file, m1, m2, m3, m4, m5, rfl⟩ := addElement_parts (Grown.allocValueDecls h3 { kind, specs := [v] }).fresh h1
    have h7 := h6.valueDecls g.next { kind, specs := [v] } (by simp only; rw [m3]; exact upd_same _ _ _)
    rw [h7, ← kvd _ _ h7]; rfl

theorem endsLine_comment {pre : GoString} (hp : pre = [] ∨ EndsLine pre) (c : GoString) :
    pre ++ writeComment c = [] ∨ EndsLine (pre ++ writeComment c) := by
  by_cases h0 : c = []
  · rw [h0]; simpa [writeComment] using hp
  · exact .inr (.append _ (endsLine_writeComment h0))

theorem forall₂_map_eq {α : Type} {R : α → GoString × GoString → Prop} {f : α → GoString} (hf : ∀ a x, R a x → x.1 = f a) :
    ∀ {l : List α} {items : List (GoString × GoString)}, List.Forall₂ R l items → l.map f = items.map (·.1)
  | _, _, .nil => rfl
  | _, _, .cons h t => by rw [List.map_cons, List.map_cons, hf _ _ h, forall₂_map_eq hf t]

theorem ident_line {n : GoString} (hn : isIdent n = true) : newline ∉ n := by
  intro h
  simp only [isIdent, Bool.and_eq_true] at hn
  have := List.all_eq_true.1 hn.1.2 _ h
  exact absurd this (by decide)

/-- The lines that come before members. -/
theorem SaysMembers.line {cs : List BuildCall} {e : FileElem} {c line last : GoString} {ms : List GoString}
    (hs : SaysMembers cs e c line ms last) : newline ∉ line ∧ isCommentLine line = false := by
  cases hs with
  | types => exact ⟨by decide, by decide⟩
  | @values _ kind => cases kind <;> exact ⟨by decide, by decide⟩
  | struct _ _ _ hn =>
    refine ⟨?_, rfl⟩
    simp only [List.mem_append, not_or]
    exact ⟨⟨by decide, ident_line hn⟩, by decide⟩
  | iface _ _ _ hn =>
    refine ⟨?_, rfl⟩
    simp only [List.mem_append, not_or]
    exact ⟨⟨by decide, ident_line hn⟩, by decide⟩

/-- A declaration with members, as it is written. -/
theorem SaysMembers.text {env : Env} {fuel : Nat} {cs : List BuildCall} {h h' : Heap} (hb : build cs {} = .ok h)
    (hsk : h'.skeleton = h.skeleton) (hbk : BlocksKept h h') {e : FileElem} {c line last : GoString} {ms : List GoString}
    (hs : SaysMembers cs e c line ms last) {t : GoString} (ht : FileElem.text env h' fuel e = .ok t) :
    ∃ items : List (GoString × GoString), ms = items.map (·.1) ∧
      t = writeComment c ++ line ++ b! "\n" ++ items.flatMap (fun x => writeComment x.1 ++ x.2) ++ last ++ b! "\n" ∧
      (∀ p d, e = .types p → h'.typeDecls p = some d → (∀ q ∈ d.types, ∃ T, StandsType h' q T) → ∀ x ∈ items, docAbove x.2 = []) ∧
      ∀ pre, pre = [] ∨ EndsLine pre → (∀ x ∈ items, docAbove x.2 = []) → ∀ (k : Nat) m b, items[k]? = some (m, b) →
        docAbove (pre ++ writeComment c ++ line ++ b! "\n" ++ (items.take k).flatMap (fun x => writeComment x.1 ++ x.2)
          ++ writeComment m) = docLines m := by
  have hline : ∀ pre, pre = [] ∨ EndsLine pre → docAbove (pre ++ writeComment c ++ line ++ b! "\n") = [] :=
    fun pre hp => C76_line (endsLine_comment hp c) hs.line.1 hs.line.2
  obtain ⟨kv, -, kt, -, kf, ke, km, -⟩ := C78_comments hb
  have hsk' := hsk
  simp only [Heap.skeleton, Heap.mk.injEq] at hsk'
  obtain ⟨-, hv, hvd, hty, htd, hfi, hem, hme, -⟩ := hsk'
  have single : ∀ {p q : Ptr}, DeclaresTypes cs p [q] → givenComment cs (.typeDecl p) = [] → FileElem.text env h' fuel (.types p) = .ok t →
      ∃ ts u, h'.types q = some ts ∧ writeUnderlying env h' fuel ts = .ok u ∧
        t = writeComment (givenComment cs (.type q)) ++ b! "type " ++ (ts.name ++ b! " " ++ (if ts.isAlias then b! "= " else []) ++ u) := by
    intro p q hd hc ht
    have hd := hd.at hb
    rw [hc] at hd
    rw [FileElem.text, deref, show h'.typeDecls p = _ from (congrFun htd p).trans hd] at ht
    obtain ⟨ts, h1, ht⟩ := bind_eq_ok (show (deref h'.types q).bind _ = _ from ht)
    obtain ⟨x, h2, ht⟩ := bind_eq_ok ht
    obtain ⟨u, h3, h2⟩ := bind_eq_ok h2
    cases h2
    cases ht
    have h1 := deref_eq_ok h1
    obtain ⟨ts0, h4, h5⟩ := skel_some hty h1
    refine ⟨ts, u, h1, h3, ?_⟩
    rw [← kt q ts0 h4, show ts0.comment = ts.comment by have := congrArg TypeSpec.comment h5; exact this]
    rfl
  have own : ∀ {p q : Ptr} {d : TypeDecl}, DeclaresTypes cs p [q] → h'.typeDecls p = some d →
      (∀ q ∈ d.types, ∃ T, StandsType h' q T) → ∃ T, StandsType h' q T := by
    intro p q d hd hd' hT
    rw [show h'.typeDecls p = _ from (congrFun htd p).trans (hd.at hb)] at hd'
    cases hd'
    exact hT q List.mem_cons_self
  cases hs with
  | @types p l hd hg =>
    have hd := hd.at hb
    rw [FileElem.text, deref, show h'.typeDecls p = _ from (congrFun htd p).trans hd] at ht
    obtain ⟨items, h1, rfl, h3⟩ := C76_types ht hg
    refine ⟨items, forall₂_map_eq ?_ h1, by simp only [List.append_assoc]; rfl, ?_, ?_⟩
    · rintro q x ⟨v, h4, h5, -⟩
      obtain ⟨v0, h6, h7⟩ := skel_some hty h4
      rw [h5, ← kt q v0 h6]
      exact (congrArg TypeSpec.comment h7).symm
    · intro p' d he hd' hT
      cases he
      rw [show h'.typeDecls p = _ from (congrFun htd p).trans hd] at hd'
      cases hd'
      refine forall₂_all_right h1 ?_
      rintro q hq x ⟨v, k1, k2, k3⟩
      obtain ⟨T, hT⟩ := hT q hq
      rw [k2] at k3
      exact docAbove_spec k1 hT k3
    · intro pre hp hi k m b hk
      have := h3 pre (by have := hline pre hp; simp only [List.append_assoc] at this ⊢; exact this) hi k m b hk
      simp only [List.append_assoc] at this ⊢
      exact this
  | @values p kind l hd hg =>
    have hd := hd.at hb
    rw [FileElem.text, deref, show h'.valueDecls p = _ from (congrFun hvd p).trans hd] at ht
    obtain ⟨items, h1, rfl, h3⟩ := C76_values ht hg
    refine ⟨items, forall₂_map_eq ?_ h1, by simp only [List.append_assoc]; cases kind <;> rfl, fun _ _ he => (by cases he), ?_⟩
    · rintro q x ⟨v, h4, h5, -⟩
      obtain ⟨v0, h6, h7⟩ := skel_some hv h4
      rw [h5, ← kv q v0 h6]
      exact (congrArg ValueSpec.comment h7).symm
    · intro pre hp hi k m b hk
      have := h3 pre (by have := hline pre hp; simp only [List.append_assoc] at this ⊢; cases kind <;> exact this) hi k m b hk
      simp only [List.append_assoc] at this ⊢
      cases kind <;> exact this
  | @struct p n fs g post hd hc hm hn =>
    obtain ⟨ts, u, h1, h2, rfl⟩ := single hd hc ht
    obtain ⟨g1, e1, -, e3, -, -, e6⟩ := hm.exec hb
    obtain ⟨q, e7⟩ := built_ok e1
    obtain ⟨-, hq, -⟩ := newStructTypeSpec_grown e3 e7
    obtain ⟨ts0, ft, k1, k2, k3, k4, k5, k6, -⟩ := C39_struct (e3.types _ (Nat.le_refl _)) e7
    rw [hq] at k1
    obtain ⟨par, k7⟩ := e6.types _ _ k1
    obtain ⟨ts1, m1, m2, -⟩ := hbk _ _ k7
    rw [h1] at m1; cases m1
    obtain ⟨fs', m3⟩ := m2 ⟨ft, k5⟩
    obtain ⟨tsx, m4, m5⟩ := skel_some hty h1
    rw [k7] at m4; cases m4
    have n1 : n = ts.name := k2.symm.trans (by have := congrArg TypeSpec.name m5; exact this)
    have n2 : false = ts.isAlias := k3.symm.trans (by have := congrArg TypeSpec.isAlias m5; exact this)
    have n3 : fs = ts.structBody := k4.symm.trans (by have := congrArg TypeSpec.structBody m5; exact this)
    cases fuel with
    | zero => cases h2
    | succ fuel =>
      obtain ⟨items, i1, rfl, i3⟩ := C76_fields h2 m3
      rw [← n3] at i1
      refine ⟨items, forall₂_map_eq ?_ i1, by rw [← n1, ← n2]; simp only [List.append_assoc]; rfl, ?_, ?_⟩
      · rintro q x ⟨v, h4, h5, -⟩
        obtain ⟨v0, h6, h7⟩ := skel_some hfi h4
        rw [h5, ← kf q v0 h6]
        exact (congrArg FieldSpec.comment h7).symm
      · intro p' d he hd' hT
        cases he
        obtain ⟨T, hT⟩ := own hd hd' hT
        obtain ⟨ts', o1, -, -, -, o2⟩ := hT
        rw [h1] at o1; cases o1
        refine forall₂_all_right i1 ?_
        generalize T.type = ty at o2
        cases o2 with
        | struct _ hl =>
          rintro q hq x ⟨v, k1, k2, k3⟩
          obtain ⟨f', g', k4, k5⟩ := hl.mem q (by rw [← n3]; exact hq)
          rw [k1] at k4; cases k4
          rw [k2] at k3
          exact docAbove_field k5 k3
        | iface o _ => rw [m3] at o; cases o
        | other o _ _ => rw [m3] at o; cases o
      · intro pre hp hi k m b hk
        have := i3 (pre ++ writeComment (givenComment cs (.type g.next)) ++ b! "type " ++ n ++ b! " ")
          (by have := hline pre hp; simp only [List.append_assoc] at this ⊢; exact this) hi k m b hk
        simp only [List.append_assoc] at this ⊢
        exact this
  | @iface p n es g post hd hc hm hn =>
    obtain ⟨ts, u, h1, h2, rfl⟩ := single hd hc ht
    obtain ⟨g1, e1, -, e3, -, -, e6⟩ := hm.exec hb
    obtain ⟨q, e7⟩ := built_ok e1
    obtain ⟨-, hq, -⟩ := newInterfaceTypeSpec_grown e3 e7
    obtain ⟨ts0, ss, mt, k1, k2, k3, k4, k5, k6, -⟩ := C39_interface (e3.types _ (Nat.le_refl _)) e7
    rw [hq] at k1
    obtain ⟨par, k7⟩ := e6.types _ _ k1
    obtain ⟨ts1, m1, -, m2⟩ := hbk _ _ k7
    rw [h1] at m1; cases m1
    obtain ⟨ms', es', m3⟩ := m2 ⟨_, _, k5⟩
    obtain ⟨tsx, m4, m5⟩ := skel_some hty h1
    rw [k7] at m4; cases m4
    have n1 : n = ts.name := k2.symm.trans (by have := congrArg TypeSpec.name m5; exact this)
    have n2 : false = ts.isAlias := k3.symm.trans (by have := congrArg TypeSpec.isAlias m5; exact this)
    have n3 : es = ts.interfaceBody := k4.symm.trans (by have := congrArg TypeSpec.interfaceBody m5; exact this)
    cases fuel with
    | zero => cases h2
    | succ fuel =>
      obtain ⟨items, i1, rfl, i3⟩ := C76_methods h2 m3
      rw [← n3] at i1
      refine ⟨items, forall₂_map_eq ?_ i1, by rw [← n1, ← n2]; simp only [List.append_assoc]; rfl, ?_, ?_⟩
      · rintro q x ⟨h4, -⟩
        cases q with
        | embed q =>
          obtain ⟨v, h4, h5⟩ := h4
          obtain ⟨v0, h6, h7⟩ := skel_some hem h4
          rw [h5, IfaceElem.obj, ← ke q v0 h6]
          exact (congrArg InterfaceEmbed.comment h7).symm
        | method q =>
          obtain ⟨v, h4, h5⟩ := h4
          obtain ⟨v0, h6, h7⟩ := skel_some hme h4
          rw [h5, IfaceElem.obj, ← km q v0 h6]
          exact (congrArg InterfaceMethod.comment h7).symm
      · intro p' d he hd' hT
        cases he
        obtain ⟨T, hT⟩ := own hd hd' hT
        obtain ⟨ts', o1, -, -, -, o2⟩ := hT
        rw [h1] at o1; cases o1
        refine forall₂_all_right i1 ?_
        generalize T.type = ty at o2
        cases o2 with
        | iface _ hl =>
          rintro q hq x ⟨k1, k2⟩
          obtain ⟨g', -, k5⟩ := forall₂_mem_left hl (by rw [← n3]; exact hq)
          exact docAbove_elem k5 k1 k2
        | struct o _ => rw [m3] at o; cases o
        | other o _ _ => rw [m3] at o; cases o
      · intro pre hp hi k m b hk
        have := i3 (pre ++ writeComment (givenComment cs (.type g.next)) ++ b! "type " ++ n ++ b! " ")
          (by have := hline pre hp; simp only [List.append_assoc] at this ⊢; exact this) hi k m b hk
        simp only [List.append_assoc] at this ⊢
        exact this

/-- The elements of the file that a program makes. -/
theorem SaysElements.at {cs : List BuildCall} {h : Heap} {p : Ptr} {pkg : GoString} {es : List FileElem} (hb : build cs {} = .ok h)
    (hs : SaysElements cs p pkg es) : ∃ f, h.files p = some f ∧ f.elements = es := by
  cases hs with
  | @file name own _ g g' post hm hg =>
    obtain ⟨g1, k1, k2, k3, k4, k5, k6⟩ := hm.exec hb
    rw [hg] at k1; cases k1
    obtain ⟨q, h1⟩ := built_ok hg
    obtain ⟨f0, h2, h1⟩ := bind_eq_ok h1
    cases h1
    have hf0 : f0.elements = [] := by
      unfold newGoFile at h2
      repeat' split at h2
      all_goals cases h2
      rfl
    obtain ⟨f, es, m1, m2, m3, m4, m5, m6, m7⟩ := k6.files g.next f0 (upd_same _ _ _)
    refine ⟨f, m1, ?_⟩
    rw [m6, hf0, adds_filterMap (steps_fresh k4) m7]
    rfl

/-- **C78** In the file that a program writes, also the members of declarations - the specs of a group, the fields of a struct and
the elements of an interface - have the comments that the calls gave them, directly above them. (What is written for a member must
not end with a comment itself, as it can if its code does; what is written for types that stand for Go types does not.) -/
theorem C78_members {env : Env} {fuel : Nat} {cs : List BuildCall} {h h' : Heap} {p : Ptr} {pkg text : GoString}
    {es : List FileElem} (hb : build cs {} = .ok h) (hs : SaysElements cs p pkg es)
    (hr : renderFile env fuel p h = (.ok text, h')) :
    ∃ (head : GoString) (elems : List GoString), text = head ++ elems.flatMap (b! "\n" ++ ·) ∧ elems.length = es.length ∧
      ∀ (k : Nat) e c line ms last, es[k]? = some e → SaysMembers cs e c line ms last →
        ∃ doc, CommentBlock c doc ∧ ∃ items : List (GoString × GoString), List.Forall₂ (fun m x => CommentBlock m x.1) ms items ∧
          elems[k]? = some (doc ++ line ++ b! "\n" ++ items.flatMap (fun x => x.1 ++ x.2) ++ last ++ b! "\n") ∧
          (∀ q d, e = .types q → h'.typeDecls q = some d → (∀ t ∈ d.types, ∃ T, StandsType h' t T) → ∀ x ∈ items, docAbove x.2 = []) ∧
          ((∀ x ∈ items, docAbove x.2 = []) → ∀ (j : Nat) m x, ms[j]? = some m → items[j]? = some x →
            docAbove (head ++ (elems.take k).flatMap (b! "\n" ++ ·) ++ b! "\n" ++ doc ++ line ++ b! "\n"
              ++ (items.take j).flatMap (fun x => x.1 ++ x.2) ++ x.1) = docLines m) := by
  have hsk : h'.skeleton = h.skeleton := by
    have := (C63_changes_only env fuel p h).1
    rw [hr] at this
    exact this
  obtain ⟨f, hf, rfl⟩ := hs.at hb
  obtain ⟨head, elems, h1, h2, h3⟩ := C76_elements hf hr
  refine ⟨head, elems, h1, h2.length_eq.symm, ?_⟩
  intro k e c line ms last hk hm
  obtain ⟨hlt, rfl⟩ := List.getElem?_eq_some_iff.1 hk
  have hlt' : k < elems.length := by rw [← h2.length_eq]; exact hlt
  obtain ⟨items, k1, k2, k4, k3⟩ := hm.text hb hsk (renderFile_blocksKept hr) (h2.get hlt hlt')
  refine ⟨writeComment c, commentBlock_writeComment c, items.map fun x => (writeComment x.1, x.2), ?_, ?_, ?_, ?_⟩
  · rw [k1, List.forall₂_map_left_iff, List.forall₂_map_right_iff]
    exact List.forall₂_same.2 fun x _ => commentBlock_writeComment x.1
  · rw [List.getElem?_eq_getElem hlt']
    simp only [List.get_eq_getElem] at k2
    rw [k2, List.flatMap_map]
  · intro q d he hd hT x hx
    obtain ⟨y, hy, rfl⟩ := List.mem_map.1 hx
    exact k4 q d he hd hT y hy
  · intro hd j m x hj hx
    obtain ⟨y, hy, rfl⟩ := Option.map_eq_some_iff.1 ((List.getElem?_map ..).symm.trans hx)
    rw [k1, List.getElem?_map, hy] at hj
    cases hj
    have := k3 (head ++ (elems.take k).flatMap (b! "\n" ++ ·) ++ b! "\n") (.inr (endsLine_newline _))
      (fun z hz => by have := hd (writeComment z.1, z.2) (List.mem_map.2 ⟨z, hz, rfl⟩); exact this) j y.1 y.2 hy
    rw [← List.map_take, List.flatMap_map]
    exact this

/-! ### An example -/

/-- The fields of the struct, and the constants of the group, in the program that gives comments. -/
theorem exTold_fields : SaysMembers exTold (.types 3) (b! "Item is sold.\nAlways.") (b! "type Item  struct {") [b! "In cm."] (b! "}") := by
  obtain ⟨g, m, k⟩ := Made.at (cs := exTold) 7 rfl (k := 3) (by decide +kernel)
  obtain ⟨g', m', k'⟩ := Made.at (cs := exTold) 4 rfl (k := 2) (by decide +kernel)
  have h1 := DeclaresTypes.added m
  rw [k] at h1
  have h2 := SaysMembers.struct (n := b! "Item") (fs := [1]) (p := 3) (g := g') (by rw [k']; exact h1) (by decide +kernel) m' (by decide)
  rw [k'] at h2
  exact h2

theorem exTold_consts : SaysMembers exTold (.values 5) (b! "Letters.") (b! "const (") [b! "The first."] (b! ")") := by
  obtain ⟨g, m, k⟩ := Made.at (cs := exTold) 10 rfl (k := 5) (by decide +kernel)
  have h1 := DeclaresValues.decl m
  rw [k] at h1
  exact SaysMembers.values h1 (by decide +kernel)

/-- What is written for the struct, whatever the environment: the field has its comment directly above it. -/
example {env : Env} {fuel : Nat} {h h' : Heap} {text : GoString} (hb : build exTold {} = .ok h)
    (hr : renderFile env fuel 0 h = (.ok text, h')) :
    ∃ pre doc field post, text = pre ++ b! "type Item  struct {\n" ++ doc ++ field ++ b! "}\n" ++ post ∧
      CommentBlock (b! "In cm.") doc ∧
      (docAbove field = [] → docAbove (pre ++ b! "type Item  struct {\n" ++ doc) = [b! "// In cm."]) := by
  obtain ⟨head, elems, h1, h2, h3⟩ := C78_members hb exTold_elements hr
  obtain ⟨doc, hd, items, hi, h4, h5⟩ := h3 0 _ _ _ _ _ rfl exTold_fields
  cases hi with
  | @cons _ x _ _ hx ht =>
    cases ht
    refine ⟨head ++ b! "\n" ++ doc, x.1, x.2, (elems.drop 1).flatMap (b! "\n" ++ ·), ?_, hx, fun hn => ?_⟩
    · cases elems with
      | nil => cases h4
      | cons e es =>
        cases h4
        rw [h1]
        simp
    · have := h5.2 (by simpa using hn) 0 _ x rfl rfl
      rw [show docLines (b! "In cm.") = [b! "// In cm."] by decide] at this
      simpa using this

end Gopoet
