import Verif.Spec.Independent
import Verif.Proof.SettledHeap
/-! What the qualification of a file reads and changes. -/

namespace Gopoet
open Imports

/-! ### Skeletons -/

theorem skeleton_upd {α : Type} (sk : α → α) {m : Ptr → Option α} {p : Ptr} {a a' : α} (hm : m p = some a)
    (h : sk a' = sk a) : (fun q => (upd m p a' q).map sk) = fun q => (m q).map sk := by
  funext q
  by_cases hq : q = p
  · subst hq; simp [upd_same, hm, h]
  · rw [upd_ne _ _ hq]

theorem QStep.skeleton {h i h' i'} (a : QStep h i h' i') : h'.skeleton = h.skeleton := by
  cases a with
  | imports => rfl
  | type ht _ =>
    simp only [Heap.skeleton, Heap.mk.injEq, true_and, and_true]
    exact skeleton_upd TypeSpec.skeleton ht rfl
  | field hf ht _ =>
    simp only [Heap.skeleton, Heap.mk.injEq, true_and, and_true]
    exact skeleton_upd FieldSpec.skeleton hf (by simp [FieldSpec.skeleton, ht, TypeRef.skeleton])
  | embed ht _ =>
    simp only [Heap.skeleton, Heap.mk.injEq, true_and, and_true]
    exact skeleton_upd InterfaceEmbed.skeleton ht rfl
  | method ht _ =>
    simp only [Heap.skeleton, Heap.mk.injEq, true_and, and_true]
    exact skeleton_upd InterfaceMethod.skeleton ht rfl
  | value hf ht _ =>
    simp only [Heap.skeleton, Heap.mk.injEq, true_and, and_true]
    exact skeleton_upd ValueSpec.skeleton hf (by simp [ValueSpec.skeleton, ht, TypeRef.skeleton])
  | func ht _ =>
    simp only [Heap.skeleton, Heap.mk.injEq, true_and, and_true]
    exact skeleton_upd FuncSpec.skeleton ht rfl
  | args => rfl
  | templ ht _ =>
    simp only [Heap.skeleton, Heap.mk.injEq, true_and, and_true]
    exact skeleton_upd (fun t : Templ => { t with data := .scalar 0 }) ht rfl

theorem QSteps.skeleton {h i h' i'} (a : QSteps h i h' i') : h'.skeleton = h.skeleton := by
  induction a with
  | refl => rfl
  | step _ s ih => exact s.skeleton.trans ih

theorem skeleton_package (f : GoFile) : f.skeleton.package = f.package := rfl

theorem packageAt_skeleton (h : Heap) (p : Ptr) : packageAt h.skeleton p = packageAt h p := by
  simp only [packageAt, deref, Heap.skeleton]
  cases h.files p <;> rfl

theorem valueSymbolAt_skeleton (h : Heap) (c : ValueSpec) (k : Nat) :
    c.skeleton.symbolAt h.skeleton k = c.symbolAt h k := by
  simp only [ValueSpec.symbolAt, ValueSpec.skeleton, packageAt_skeleton]

theorem valueToSymbol_skeleton (h : Heap) (c : ValueSpec) : c.skeleton.toSymbol h.skeleton = c.toSymbol h := by
  simp only [ValueSpec.toSymbol, valueSymbolAt_skeleton]
  rfl

theorem typeToSymbol_skeleton (h : Heap) (t : TypeSpec) : t.skeleton.toSymbol h.skeleton = t.toSymbol h := by
  simp only [TypeSpec.toSymbol, TypeSpec.skeleton, packageAt_skeleton]

theorem funcToSymbol_skeleton (h : Heap) (f : FuncSpec) : f.skeleton.toSymbol h.skeleton = f.toSymbol h := by
  simp only [FuncSpec.toSymbol, FuncSpec.skeleton, packageAt_skeleton]

theorem methodToRef_skeleton (h : Heap) (m : InterfaceMethod) :
    m.skeleton.toMethodRef h.skeleton = m.toMethodRef h := by
  simp only [InterfaceMethod.toMethodRef, InterfaceMethod.skeleton]
  cases m.parent with
  | none => rfl
  | some t =>
    simp only [deref, Heap.skeleton]
    cases h.types t with
    | none => rfl
    | some ts =>
      show (ts.skeleton.toSymbol h.skeleton >>= _) = (ts.toSymbol h >>= _)
      rw [typeToSymbol_skeleton]

theorem deref_skeleton {α β : Type} (f : α → α) (m : Ptr → Option α) (p : Ptr) (g : α → Outcome β) (g' : α → Outcome β)
    (h : ∀ a, g (f a) = g' a) : (deref (fun q => (m q).map f) p).bind g = (deref m p).bind g' := by
  simp only [deref]
  cases m p with
  | none => rfl
  | some a => exact h a

theorem qualifyArg_skeleton (h : Heap) (a : Arg) : qualifyArg h.skeleton a = qualifyArg h a := by
  cases a <;> try rfl
  · simp only [qualifyArg]
    congr 2
    exact deref_skeleton _ _ _ _ _ (valueToSymbol_skeleton h)
  · simp only [qualifyArg]
    congr 2
    exact deref_skeleton _ _ _ _ _ (typeToSymbol_skeleton h)
  · simp only [qualifyArg]
    congr 2
    exact deref_skeleton _ _ _ _ _ (methodToRef_skeleton h)
  · simp only [qualifyArg]
    congr 2
    exact deref_skeleton _ _ _ _ _ (funcToSymbol_skeleton h)

theorem qualifyArgList_skeleton (h : Heap) : ∀ l i, qualifyArgList h.skeleton l i = qualifyArgList h l i
  | [], _ => rfl
  | a :: l, i => by simp only [qualifyArgList, qualifyArg_skeleton, qualifyArgList_skeleton h l]

theorem parent_skeleton (h : Heap) (r : SpecRef) : r.parent h.skeleton = r.parent h := by
  cases r <;> exact deref_skeleton _ _ _ _ _ fun _ => rfl

mutual
theorem qualifyData_skeleton (h : Heap) : ∀ (addr : Bool) (v : TVal), qualifyData h.skeleton addr v = qualifyData h addr v
  | addr, .iface acc v => by
    by_cases hc : v.isConv = true
    · cases v <;> first | rfl | simp [TVal.isConv] at hc
    · rw [qualifyData_iface _ _ _ (by simpa using hc), qualifyData_iface _ _ _ (by simpa using hc),
        qualifyData_skeleton h false v]
  | addr, .package _ => rfl
  | addr, .symbol _ => rfl
  | addr, .mref _ => rfl
  | addr, .signature _ => rfl
  | addr, .spec r => by
    simp only [qualifyData, parent_skeleton]
    congr 1
    funext o
    cases o with
    | none => rfl
    | some f =>
      dsimp only [deref, Heap.skeleton]
      cases h.files f <;> rfl
  | addr, .specCopy _ _ => rfl
  | addr, .embed _ => rfl
  | addr, .method _ => rfl
  | addr, .imports => rfl
  | addr, .scalar _ => rfl
  | addr, .typeName _ => rfl
  | addr, .reflectType _ => rfl
  | addr, .goType _ => rfl
  | addr, .goObject _ => rfl
  | addr, .goPackage _ => rfl
  | addr, .ptr v => by simp only [qualifyData, qualifyData_skeleton h true v]
  | addr, .struct fs => by simp only [qualifyData, qualifyDataFields_skeleton h addr _ _ fs]
  | addr, .array vs => by simp only [qualifyData, qualifyDataElems_skeleton h addr _ _ vs]
  | addr, .slice vs => by simp only [qualifyData, qualifyDataElems_skeleton h true _ _ vs]
  | addr, .map es => by simp only [qualifyData, qualifyDataEntries_skeleton h es]
theorem qualifyDataFields_skeleton (h : Heap) : ∀ (addr changed hidden : Bool) (fs : List (Bool × TVal)),
    qualifyDataFields h.skeleton addr changed hidden fs = qualifyDataFields h addr changed hidden fs
  | _, _, _, [] => rfl
  | addr, changed, hidden, (e, v) :: fs => by
    simp only [qualifyDataFields, qualifyData_skeleton h addr v, qualifyDataFields_skeleton h addr _ _ fs]
theorem qualifyDataElems_skeleton (h : Heap) : ∀ (addr sliceable changed : Bool) (vs : List TVal),
    qualifyDataElems h.skeleton addr sliceable changed vs = qualifyDataElems h addr sliceable changed vs
  | _, _, _, [] => rfl
  | addr, sliceable, changed, v :: vs => by
    simp only [qualifyDataElems, qualifyData_skeleton h addr v, qualifyDataElems_skeleton h addr _ _ vs]
theorem qualifyDataEntries_skeleton (h : Heap) : ∀ (es : List (TVal × TVal)),
    qualifyDataEntries h.skeleton es = qualifyDataEntries h es
  | [] => rfl
  | (k, v) :: es => by
    simp only [qualifyDataEntries, qualifyData_skeleton h false k, qualifyData_skeleton h false v,
      qualifyDataEntries_skeleton h es]
end

theorem qualifyTemplateData_skeleton (h : Heap) (v : TVal) :
    qualifyTemplateData h.skeleton v = qualifyTemplateData h v := by
  simp only [qualifyTemplateData, qualifyData_skeleton]

/-! ### Actions that stay within some places -/

theorem Place.Same.refl (h : Heap) (x : Place) : x.Same h h := by cases x <;> rfl

theorem Place.Same.symm {h h' : Heap} {x : Place} (a : x.Same h h') : x.Same h' h := by
  cases x <;> exact Eq.symm a

theorem Place.Same.trans {h h' h'' : Heap} {x : Place} (a : x.Same h h') (b : x.Same h' h'') : x.Same h h'' := by
  cases x <;> exact Eq.trans b a

/-- The action changes nothing but what is at `R`, and does the same in all heaps with the skeleton `s` that are
the same at `R`. -/
structure QM.Local {α : Type} (s : Heap) (R : Place → Prop) (x : QM α) : Prop where
  skel : ∀ h i, h.skeleton = s → (x h i).2.1.skeleton = s
  only : ∀ h i, h.skeleton = s → ∀ y, ¬ R y → y.Same h (x h i).2.1
  det : ∀ h h2 i, h.skeleton = s → h2.skeleton = s → (∀ y, R y → y.Same h h2) →
    (x h2 i).1 = (x h i).1 ∧ (x h2 i).2.2 = (x h i).2.2 ∧ ∀ y, R y → y.Same (x h i).2.1 (x h2 i).2.1

namespace QM.Local
variable {α β : Type} {s : Heap} {R : Place → Prop}

theorem ret (a : α) : QM.Local s R (QM.ret a) :=
  ⟨fun _ _ h => h, fun _ _ _ _ _ => .refl _ _, fun _ _ _ _ _ hs => ⟨rfl, rfl, hs⟩⟩

theorem hang : QM.Local s R (QM.hang : QM α) :=
  ⟨fun _ _ h => h, fun _ _ _ _ _ => .refl _ _, fun _ _ _ _ _ hs => ⟨rfl, rfl, hs⟩⟩

theorem bind_ok {x : QM α} {f : α → QM β} (hx : QM.Local s R x)
    (hf : ∀ a, (∃ h i h' i', x h i = (.ok a, h', i')) → QM.Local s R (f a)) :
    QM.Local s R (QM.bind x f) := by
  refine ⟨fun h i hh => ?_, fun h i hh y hy => ?_, fun h h2 i hh hh2 hs => ?_⟩
  · have h2 := hx.skel h i hh
    unfold QM.bind
    rcases hxe : x h i with ⟨a | _ | _, h', i'⟩ <;> rw [hxe] at h2 <;> dsimp only at h2 ⊢
    · exact (hf a ⟨_, _, _, _, hxe⟩).skel h' i' h2
    · exact h2
    · exact h2
  · have h1 := hx.only h i hh y hy
    have h2 := hx.skel h i hh
    unfold QM.bind
    rcases hxe : x h i with ⟨a | _ | _, h', i'⟩ <;> rw [hxe] at h1 h2 <;> dsimp only at h1 h2 ⊢
    · exact h1.trans ((hf a ⟨_, _, _, _, hxe⟩).only h' i' h2 y hy)
    · exact h1
    · exact h1
  · obtain ⟨e1, e2, e3⟩ := hx.det h h2 i hh hh2 hs
    have k1 := hx.skel h i hh
    have k2 := hx.skel h2 i hh2
    unfold QM.bind
    rcases hxe : x h i with ⟨o, h', i'⟩
    rcases hxe2 : x h2 i with ⟨o2, h2', i2'⟩
    rw [hxe] at e1 e2 e3 k1
    rw [hxe2] at e1 e2 e3 k2
    dsimp only at e1 e2 e3 k1 k2
    subst e1 e2
    cases o2 with
    | ok a => exact (hf a ⟨_, _, _, _, hxe⟩).det h' h2' i2' k1 k2 e3
    | panic => exact ⟨rfl, rfl, e3⟩
    | hang => exact ⟨rfl, rfl, e3⟩

theorem bind {x : QM α} {f : α → QM β} (hx : QM.Local s R x) (hf : ∀ a, QM.Local s R (f a)) :
    QM.Local s R (QM.bind x f) := bind_ok hx fun a _ => hf a

/-- Reading, where what is read is known up to the skeleton. -/
theorem bind_read {m : Heap → Ptr → Option α} {p : Ptr} {f : α → QM β}
    (hm : ∀ h h2, h.skeleton = s → h2.skeleton = s → (∀ y, R y → y.Same h h2) → m h2 p = m h p)
    (hf : ∀ h a, h.skeleton = s → m h p = some a → QM.Local s R (f a)) :
    QM.Local s R (QM.bind (QM.read m p) f) := by
  refine ⟨fun h i hh => ?_, fun h i hh y hy => ?_, fun h h2 i hh hh2 hs => ?_⟩
  · unfold QM.bind QM.read deref
    cases hp : m h p with
    | none => exact hh
    | some a => exact (hf h a hh hp).skel h i hh
  · unfold QM.bind QM.read deref
    cases hp : m h p with
    | none => exact .refl _ _
    | some a => exact (hf h a hh hp).only h i hh y hy
  · have e := hm h h2 hh hh2 hs
    unfold QM.bind QM.read deref
    cases hp : m h p with
    | none => rw [e, hp]; exact ⟨rfl, rfl, hs⟩
    | some a => rw [e, hp]; exact (hf h a hh hp).det h h2 i hh hh2 hs

theorem lift {x : Heap → IM α} (hx : ∀ h h2, h.skeleton = s → h2.skeleton = s → x h2 = x h) :
    QM.Local s R (QM.lift x) := by
  refine ⟨fun h i hh => ?_, fun h i hh y hy => ?_, fun h h2 i hh hh2 hs => ?_⟩
  · exact hh
  · exact .refl _ _
  · unfold QM.lift
    rw [hx h h2 hh hh2]
    exact ⟨rfl, rfl, hs⟩

theorem forEach {f : α → QM Unit} : ∀ {l : List α}, (∀ a ∈ l, QM.Local s R (f a)) → QM.Local s R (QM.forEach f l)
  | [], _ => ret ()
  | a :: l, h => bind (h a (by simp)) fun _ => forEach fun b hb => h b (by simp [hb])

theorem modify {g : Heap → Heap} (skel : ∀ h, h.skeleton = s → (g h).skeleton = s)
    (only : ∀ h y, ¬ R y → y.Same h (g h))
    (det : ∀ h h2, (∀ y, R y → y.Same h h2) → ∀ y, R y → y.Same (g h) (g h2)) : QM.Local s R (QM.modify g) :=
  ⟨fun h _ hh => skel h hh, fun h _ _ y hy => only h y hy, fun h h2 _ _ _ hs => ⟨rfl, rfl, det h h2 hs⟩⟩

/-! Writing. -/

theorem type {p : Ptr} {t : TypeSpec} (hs : s.types p = some t.skeleton) (hR : R (.type p)) :
    QM.Local s R (QM.modify fun h => { h with types := upd h.types p t }) := by
  refine modify (fun h hh => ?_) (fun h y hy => ?_) fun h h2 hs y hy => ?_
  · subst hh
    simp only [Heap.skeleton, Option.map_eq_some_iff] at hs
    obtain ⟨a, h1, h2⟩ := hs
    simp only [Heap.skeleton, Heap.mk.injEq, true_and, and_true]
    exact skeleton_upd TypeSpec.skeleton h1 h2.symm
  · cases y <;> try rfl
    case type q => exact upd_ne _ _ (by rintro rfl; exact hy hR)
  · have := hs y hy
    cases y <;> try exact this
    case type q =>
      by_cases hq : q = p
      · subst hq; simp only [Place.Same, upd_same]
      · simp only [Place.Same, upd_ne _ _ hq]; exact this

theorem field {p : Ptr} {t : FieldSpec} (hs : s.fields p = some t.skeleton) (hR : R (.field p)) :
    QM.Local s R (QM.modify fun h => { h with fields := upd h.fields p t }) := by
  refine modify (fun h hh => ?_) (fun h y hy => ?_) fun h h2 hs y hy => ?_
  · subst hh
    simp only [Heap.skeleton, Option.map_eq_some_iff] at hs
    obtain ⟨a, h1, h2⟩ := hs
    simp only [Heap.skeleton, Heap.mk.injEq, true_and, and_true]
    exact skeleton_upd FieldSpec.skeleton h1 h2.symm
  · cases y <;> try rfl
    case field q => exact upd_ne _ _ (by rintro rfl; exact hy hR)
  · have := hs y hy
    cases y <;> try exact this
    case field q =>
      by_cases hq : q = p
      · subst hq; simp only [Place.Same, upd_same]
      · simp only [Place.Same, upd_ne _ _ hq]; exact this

theorem embed {p : Ptr} {t : InterfaceEmbed} (hs : s.embeds p = some t.skeleton) (hR : R (.embed p)) :
    QM.Local s R (QM.modify fun h => { h with embeds := upd h.embeds p t }) := by
  refine modify (fun h hh => ?_) (fun h y hy => ?_) fun h h2 hs y hy => ?_
  · subst hh
    simp only [Heap.skeleton, Option.map_eq_some_iff] at hs
    obtain ⟨a, h1, h2⟩ := hs
    simp only [Heap.skeleton, Heap.mk.injEq, true_and, and_true]
    exact skeleton_upd InterfaceEmbed.skeleton h1 h2.symm
  · cases y <;> try rfl
    case embed q => exact upd_ne _ _ (by rintro rfl; exact hy hR)
  · have := hs y hy
    cases y <;> try exact this
    case embed q =>
      by_cases hq : q = p
      · subst hq; simp only [Place.Same, upd_same]
      · simp only [Place.Same, upd_ne _ _ hq]; exact this

theorem method {p : Ptr} {t : InterfaceMethod} (hs : s.methods p = some t.skeleton) (hR : R (.method p)) :
    QM.Local s R (QM.modify fun h => { h with methods := upd h.methods p t }) := by
  refine modify (fun h hh => ?_) (fun h y hy => ?_) fun h h2 hs y hy => ?_
  · subst hh
    simp only [Heap.skeleton, Option.map_eq_some_iff] at hs
    obtain ⟨a, h1, h2⟩ := hs
    simp only [Heap.skeleton, Heap.mk.injEq, true_and, and_true]
    exact skeleton_upd InterfaceMethod.skeleton h1 h2.symm
  · cases y <;> try rfl
    case method q => exact upd_ne _ _ (by rintro rfl; exact hy hR)
  · have := hs y hy
    cases y <;> try exact this
    case method q =>
      by_cases hq : q = p
      · subst hq; simp only [Place.Same, upd_same]
      · simp only [Place.Same, upd_ne _ _ hq]; exact this

theorem value {p : Ptr} {t : ValueSpec} (hs : s.values p = some t.skeleton) (hR : R (.value p)) :
    QM.Local s R (QM.modify fun h => { h with values := upd h.values p t }) := by
  refine modify (fun h hh => ?_) (fun h y hy => ?_) fun h h2 hs y hy => ?_
  · subst hh
    simp only [Heap.skeleton, Option.map_eq_some_iff] at hs
    obtain ⟨a, h1, h2⟩ := hs
    simp only [Heap.skeleton, Heap.mk.injEq, true_and, and_true]
    exact skeleton_upd ValueSpec.skeleton h1 h2.symm
  · cases y <;> try rfl
    case value q => exact upd_ne _ _ (by rintro rfl; exact hy hR)
  · have := hs y hy
    cases y <;> try exact this
    case value q =>
      by_cases hq : q = p
      · subst hq; simp only [Place.Same, upd_same]
      · simp only [Place.Same, upd_ne _ _ hq]; exact this

theorem func {p : Ptr} {t : FuncSpec} (hs : s.funcs p = some t.skeleton) (hR : R (.func p)) :
    QM.Local s R (QM.modify fun h => { h with funcs := upd h.funcs p t }) := by
  refine modify (fun h hh => ?_) (fun h y hy => ?_) fun h h2 hs y hy => ?_
  · subst hh
    simp only [Heap.skeleton, Option.map_eq_some_iff] at hs
    obtain ⟨a, h1, h2⟩ := hs
    simp only [Heap.skeleton, Heap.mk.injEq, true_and, and_true]
    exact skeleton_upd FuncSpec.skeleton h1 h2.symm
  · cases y <;> try rfl
    case func q => exact upd_ne _ _ (by rintro rfl; exact hy hR)
  · have := hs y hy
    cases y <;> try exact this
    case func q =>
      by_cases hq : q = p
      · subst hq; simp only [Place.Same, upd_same]
      · simp only [Place.Same, upd_ne _ _ hq]; exact this

theorem templ {p : Ptr} {t : Templ} (hs : s.templs p = some { t with data := .scalar 0 }) (hR : R (.templ p)) :
    QM.Local s R (QM.modify fun h => { h with templs := upd h.templs p t }) := by
  refine modify (fun h hh => ?_) (fun h y hy => ?_) fun h h2 hs y hy => ?_
  · subst hh
    simp only [Heap.skeleton, Option.map_eq_some_iff] at hs
    obtain ⟨a, h1, h2⟩ := hs
    simp only [Heap.skeleton, Heap.mk.injEq, true_and, and_true]
    exact skeleton_upd (fun t : Templ => { t with data := .scalar 0 }) h1 h2.symm
  · cases y <;> try rfl
    case templ q => exact upd_ne _ _ (by rintro rfl; exact hy hR)
  · have := hs y hy
    cases y <;> try exact this
    case templ q =>
      by_cases hq : q = p
      · subst hq; simp only [Place.Same, upd_same]
      · simp only [Place.Same, upd_ne _ _ hq]; exact this

end QM.Local

/-! ### Qualification -/

section
variable {s : Heap} {R : Place → Prop}

theorem local_codeElem {x : CodeElem} (hR : R x.place) : QM.Local s R x.qualify := by
  cases x with
  | line format p =>
    have hR : R (.args p) := hR
    refine ⟨fun h i hh => ?_, fun h i hh y hy => ?_, fun h h2 i hh hh2 hs => ?_⟩
    · simp only [CodeElem.qualify]
      cases h.args p with
      | none => exact hh
      | some l => exact hh
    · simp only [CodeElem.qualify]
      cases hp : h.args p with
      | none => exact .refl _ _
      | some l =>
        cases y <;> try rfl
        case args q => exact upd_ne _ _ (by rintro rfl; exact hy hR)
    · have e : h2.args p = h.args p := hs _ hR
      simp only [CodeElem.qualify, e]
      cases hp : h.args p with
      | none => exact ⟨rfl, rfl, hs⟩
      | some l =>
        dsimp only
        rw [← qualifyArgList_skeleton h2, hh2, ← hh, qualifyArgList_skeleton]
        refine ⟨rfl, rfl, fun y hy => ?_⟩
        have := hs y hy
        cases y <;> try exact this
        case args q =>
          by_cases hq : q = p
          · subst hq; simp only [Place.Same, upd_same]
          · simp only [Place.Same, upd_ne _ _ hq]; exact this
  | templ p =>
    have hR : R (.templ p) := hR
    refine .bind_read (fun h h2 _ _ hs => hs _ hR) fun h t hh ht => .bind (.lift fun h h2 hh hh2 => ?_) fun d =>
      .templ ?_ hR
    · rw [← qualifyTemplateData_skeleton, hh2, ← hh, qualifyTemplateData_skeleton]
    · rw [← hh]; simp [Heap.skeleton, ht]

theorem local_code {cb : CodeBlock} (hR : ∀ x ∈ cb, R x.place) : QM.Local s R (qualifyCode cb) :=
  .forEach fun x hx => local_codeElem (hR x hx)

theorem local_ifaceElem {e : IfaceElem} (hR : R e.place) : QM.Local s R e.qualify := by
  cases e with
  | embed p =>
    refine .bind_read (fun h h2 _ _ hs => hs _ hR) fun h t hh ht => .bind_ok (.lift fun _ _ _ _ => rfl)
      fun d ⟨_, _, _, _, hd⟩ => .embed ?_ hR
    obtain ⟨hd, -⟩ := QM.lift_eq_ok hd
    obtain ⟨s', i1, -, h2⟩ := IM.bind_eq_ok hd
    cases h2
    rw [← hh]; simp [Heap.skeleton, ht, InterfaceEmbed.skeleton]
  | method p =>
    refine .bind_read (fun h h2 _ _ hs => hs _ hR) fun h t hh ht => .bind_ok (.lift fun _ _ _ _ => rfl)
      fun d ⟨_, _, _, _, hd⟩ => .method ?_ hR
    obtain ⟨hd, -⟩ := QM.lift_eq_ok hd
    obtain ⟨⟨s', c⟩, i1, -, h2⟩ := IM.bind_eq_ok hd
    cases h2
    rw [← hh]; simp [Heap.skeleton, ht, InterfaceMethod.skeleton]

theorem BodyMadeOf.skeleton {h : Heap} {p : Ptr} {x : Place} (hm : BodyMadeOf h p x) :
    BodyMadeOf h.skeleton p x := by
  induction hm with
  | self => exact .self
  | field h1 h2 => exact .field (ts := TypeSpec.skeleton _) (by simp [Heap.skeleton, h1]) h2
  | @spec _ _ _ f _ _ h1 h2 h3 h4 _ ih =>
    exact .spec (ts := TypeSpec.skeleton _) (f := f.skeleton) (by simp [Heap.skeleton, h1]) h2
      (by simp [Heap.skeleton, h3]) (by simp [FieldSpec.skeleton, h4, TypeRef.skeleton]) ih
  | elem h1 h2 => exact .elem (ts := TypeSpec.skeleton _) (by simp [Heap.skeleton, h1]) h2

theorem TypeRef.of_skeleton {t : TypeRef} {r : Ptr} (h : t.skeleton = .spec r) : t = .spec r := by
  cases t <;> simp [TypeRef.skeleton] at h ⊢; exact h

theorem BodyMadeOf.of_skeleton {h : Heap} {p : Ptr} {x : Place} (hm : BodyMadeOf h.skeleton p x) :
    BodyMadeOf h p x := by
  induction hm with
  | self => exact .self
  | field h1 h2 =>
    simp only [Heap.skeleton, Option.map_eq_some_iff] at h1
    obtain ⟨ts, h1, rfl⟩ := h1
    exact .field h1 h2
  | spec h1 h2 h3 h4 _ ih =>
    simp only [Heap.skeleton, Option.map_eq_some_iff] at h1 h3
    obtain ⟨ts, h1, rfl⟩ := h1
    obtain ⟨f, h3, rfl⟩ := h3
    exact .spec h1 h2 h3 (TypeRef.of_skeleton h4) ih
  | elem h1 h2 =>
    simp only [Heap.skeleton, Option.map_eq_some_iff] at h1
    obtain ⟨ts, h1, rfl⟩ := h1
    exact .elem h1 h2

theorem CodeIn.skeleton {h : Heap} {e : FileElem} {x : CodeElem} (hm : CodeIn h e x) : CodeIn h.skeleton e x := by
  cases hm with
  | init h1 h2 h3 h4 h5 h6 =>
    exact .init (c := ValueSpec.skeleton _) h1 h2 (by simp [Heap.skeleton, h3]) h4 h5 h6
  | func h1 h2 => exact .func (f := FuncSpec.skeleton _) (by simp [Heap.skeleton, h1]) h2

theorem CodeIn.of_skeleton {h : Heap} {e : FileElem} {x : CodeElem} (hm : CodeIn h.skeleton e x) : CodeIn h e x := by
  cases hm with
  | init h1 h2 h3 h4 h5 h6 =>
    simp only [Heap.skeleton, Option.map_eq_some_iff] at h3
    obtain ⟨c, h3, rfl⟩ := h3
    exact .init h1 h2 h3 h4 h5 h6
  | func h1 h2 =>
    simp only [Heap.skeleton, Option.map_eq_some_iff] at h1
    obtain ⟨f, h1, rfl⟩ := h1
    exact .func h1 h2

theorem MadeOf.skeleton {h : Heap} {e : FileElem} {x : Place} (hm : MadeOf h e x) : MadeOf h.skeleton e x := by
  cases hm with
  | value h1 h2 => exact .value h1 h2
  | @valueSpec _ _ _ c _ _ h1 h2 h3 h4 h5 =>
    exact .valueSpec (c := c.skeleton) h1 h2 (by simp [Heap.skeleton, h3])
      (by simp [ValueSpec.skeleton, h4, TypeRef.skeleton]) h5.skeleton
  | type h1 h2 h3 => exact .type h1 h2 h3.skeleton
  | func => exact .func
  | code h1 => exact .code h1.skeleton

theorem MadeOf.of_skeleton {h : Heap} {e : FileElem} {x : Place} (hm : MadeOf h.skeleton e x) : MadeOf h e x := by
  cases hm with
  | value h1 h2 => exact .value h1 h2
  | valueSpec h1 h2 h3 h4 h5 =>
    simp only [Heap.skeleton, Option.map_eq_some_iff] at h3
    obtain ⟨c, h3, rfl⟩ := h3
    exact .valueSpec h1 h2 h3 (TypeRef.of_skeleton h4) h5.of_skeleton
  | type h1 h2 h3 => exact .type h1 h2 h3.of_skeleton
  | func => exact .func
  | code h1 => exact .code h1.of_skeleton

theorem MadeOf.congr {h h' : Heap} (hs : h'.skeleton = h.skeleton) {e : FileElem} {x : Place} :
    MadeOf h' e x ↔ MadeOf h e x :=
  ⟨fun hm => .of_skeleton (hs ▸ hm.skeleton), fun hm => .of_skeleton (hs ▸ hm.skeleton)⟩

theorem local_spec : ∀ (fuel : Nat) (p : Ptr), (∀ x, BodyMadeOf s p x → R x) → QM.Local s R (qualifySpec fuel p)
  | 0, _, _ => .hang
  | fuel + 1, p, hR => by
    rw [qualifySpec]
    refine .bind_read (fun h h2 _ _ hs => hs _ (hR _ .self)) fun h ts hh ht => ?_
    have hts : s.types p = some ts.skeleton := by rw [← hh]; simp [Heap.skeleton, ht]
    refine .bind (.lift fun _ _ _ _ => rfl) fun u => .bind (.type hts (hR _ .self)) fun _ => .bind ?_ fun _ => ?_
    · refine .forEach fun q hq => ?_
      rw [qualifyField]
      refine .bind_read (fun h h2 _ _ hs => hs _ (hR _ (.field hts hq))) fun h2 f hh2 hf => ?_
      have hfs : s.fields q = some f.skeleton := by rw [← hh2]; simp [Heap.skeleton, hf]
      cases hft : f.type with
      | nil => exact .ret _
      | name t =>
        refine .bind (.lift fun _ _ _ _ => rfl) fun t' => .field ?_ (hR _ (.field hts hq))
        rw [hfs]; simp [FieldSpec.skeleton, hft, TypeRef.skeleton]
      | spec r =>
        exact local_spec fuel r fun x hx =>
          hR _ (.spec hts hq hfs (by simp [FieldSpec.skeleton, hft, TypeRef.skeleton]) hx)
    · exact .forEach fun e he => local_ifaceElem (hR _ (.elem hts he))

theorem local_value {fuel : Nat} {p : Ptr} (hR : R (.value p))
    (ht : ∀ c r, s.values p = some c → c.type = .spec r → ∀ x, BodyMadeOf s r x → R x)
    (hc : ∀ c b cb x, s.values p = some c → c.init = some b → s.blocks b = some cb → x ∈ cb → R x.place) :
    QM.Local s R (qualifyValue fuel p) := by
  rw [qualifyValue]
  refine .bind_read (fun h h2 _ _ hs => hs _ hR) fun h c hh hcp => ?_
  subst hh
  have hts : h.skeleton.values p = some c.skeleton := by simp [Heap.skeleton, hcp]
  refine .bind_ok (f := fun t => QM.bind (QM.modify fun h => { h with values := upd h.values p { c with type := t } })
    fun _ => match c.init with
      | none => QM.ret ()
      | some b => QM.bind (QM.read (·.blocks) b) qualifyCode) ?_ fun t ⟨h1, i1, h2, i2, e⟩ => .bind (.value ?_ hR) fun _ => ?_
  · cases hct : c.type with
    | nil => exact .ret _
    | name t => exact .bind (.lift fun _ _ _ _ => rfl) fun _ => .ret _
    | spec r =>
      exact .bind (local_spec _ _ fun x hx =>
        ht _ _ hts (by simp [ValueSpec.skeleton, hct, TypeRef.skeleton]) x hx) fun _ => .ret _
  · rw [hts]
    simp only [ValueSpec.skeleton, Option.some.injEq, ValueSpec.mk.injEq, true_and, and_true]
    cases hct : c.type with
    | nil => rw [hct] at e; cases e; rfl
    | name t' =>
      rw [hct] at e
      obtain ⟨_, _, _, _, e2⟩ := QM.bind_eq_ok e
      cases e2
      rfl
    | spec r =>
      rw [hct] at e
      obtain ⟨_, _, _, _, e2⟩ := QM.bind_eq_ok e
      cases e2
      rfl
  · cases hi : c.init with
    | none => exact .ret _
    | some b =>
      refine .bind_read (fun h1 h2 hh1 hh2 _ => ?_) fun h1 cb hh1 hcb => local_code fun x hx => ?_
      · have := congrArg Heap.blocks (hh2.trans hh1.symm)
        exact congrFun this b
      · have : h.skeleton.blocks b = some cb := by rw [← hh1]; exact hcb
        exact hc _ _ _ x hts hi this hx

theorem local_func {p : Ptr} (hR : R (.func p)) (hc : ∀ f x, s.funcs p = some f → x ∈ f.code → R x.place) :
    QM.Local s R (qualifyFunc p) := by
  rw [qualifyFunc]
  refine .bind_read (fun h h2 _ _ hs => hs _ hR) fun h f hh hf => ?_
  subst hh
  have hts : h.skeleton.funcs p = some f.skeleton := by simp [Heap.skeleton, hf]
  exact .bind (.lift fun _ _ _ _ => rfl) fun sig => .bind (.func hts hR) fun _ =>
    local_code fun x hx => hc _ x hts hx

theorem local_fileElem {fuel : Nat} {e : FileElem} (hR : ∀ x, MadeOf s e x → R x) :
    QM.Local s R (e.qualify fuel) := by
  cases e with
  | values p =>
    refine .bind_read (fun h1 h2 hh1 hh2 _ => ?_) fun h d hh hd => .forEach fun q hq => ?_
    · exact congrFun (congrArg Heap.valueDecls (hh2.trans hh1.symm)) p
    · have hd : s.valueDecls p = some d := by rw [← hh]; exact hd
      exact local_value (hR _ (.value hd hq)) (fun c r h1 h2 x hx => hR _ (.valueSpec hd hq h1 h2 hx))
        fun c b cb x h1 h2 h3 h4 => hR _ (.code (.init hd hq h1 h2 h3 h4))
  | types p =>
    refine .bind_read (fun h1 h2 hh1 hh2 _ => ?_) fun h d hh hd => .forEach fun q hq => ?_
    · exact congrFun (congrArg Heap.typeDecls (hh2.trans hh1.symm)) p
    · have hd : s.typeDecls p = some d := by rw [← hh]; exact hd
      exact local_spec _ _ fun x hx => hR _ (.type hd hq hx)
  | func p => exact local_func (hR _ .func) fun f x h1 h2 => hR _ (.code (.func h1 h2))

end

end Gopoet
