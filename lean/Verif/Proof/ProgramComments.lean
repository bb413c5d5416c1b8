import Verif.Proof.ProgramSays
/-! The comments of the objects that a program has made are those that its calls gave them. -/

namespace Gopoet

/-- The comment of an object; none where there is no object. -/
def Heap.commentOf (h : Heap) : Obj → GoString
  | .value p => (h.values p).elim [] (·.comment)
  | .valueDecl p => (h.valueDecls p).elim [] (·.comment)
  | .type p => (h.types p).elim [] (·.comment)
  | .typeDecl p => (h.typeDecls p).elim [] (·.comment)
  | .field p => (h.fields p).elim [] (·.comment)
  | .embed p => (h.embeds p).elim [] (·.comment)
  | .method p => (h.methods p).elim [] (·.comment)
  | .func p => (h.funcs p).elim [] (·.comment)

/-- The comments are the same. -/
def SameComments (h h' : Heap) : Prop := ∀ o, h'.commentOf o = h.commentOf o

theorem SameComments.trans {a b c : Heap} (h1 : SameComments a b) (h2 : SameComments b c) : SameComments a c :=
  fun o => (h2 o).trans (h1 o)

theorem elim_upd {α : Type} {c : α → GoString} {m : Ptr → Option α} {p : Ptr} {a : α} (hx : (m p).elim [] c = c a) (q : Ptr) :
    (upd m p a q).elim [] c = (m q).elim [] c := by
  by_cases hq : q = p
  · subst hq; rw [upd_same, hx]; rfl
  · rw [upd_ne _ _ hq]

theorem elim_new {α : Type} {c : α → GoString} {m : Ptr → Option α} {p : Ptr} {a : α} (hp : m p = none) (ha : c a = []) :
    (m p).elim [] c = c a := by rw [hp, ha]; rfl

theorem elim_old {α : Type} {c : α → GoString} {m : Ptr → Option α} {p : Ptr} {b a : α} (hp : m p = some b) (ha : c a = c b) :
    (m p).elim [] c = c a := by rw [hp, ha]; rfl

theorem elim_modAt {α : Type} {c : α → GoString} {m m' : Ptr → Option α} {p : Ptr} {f : α → α} (hm : modAt m p f = .ok m')
    (hf : ∀ a, c (f a) = c a) (q : Ptr) : (m' q).elim [] c = (m q).elim [] c := by
  obtain ⟨a, ha, rfl⟩ := modAt_ok hm
  exact elim_upd (elim_old ha (hf a)) q

theorem elim_setParents {α : Type} {c : α → GoString} {set : α → α} (hs : ∀ a, c (set a) = c a) :
    ∀ (l : List Ptr) {m m' : Ptr → Option α}, setParents set m l = .ok m' → ∀ q, (m' q).elim [] c = (m q).elim [] c
  | [], m, m', h, q => by cases h; rfl
  | p :: ps, m, m', h, q => by
    unfold setParents at h
    split at h
    · cases h
    · rename_i a ha
      rw [elim_setParents hs ps h q, elim_upd (elim_old ha (hs a)) q]

theorem allocFields_comments (parent : Ptr) : ∀ (fs : List FieldType) (h : Heap), (∀ p, h.next ≤ p → h.fields p = none) →
    SameComments h (allocFields h parent fs).2
  | [], _, _ => fun _ => rfl
  | ⟨name, t, tag⟩ :: fs, h, hf => by
    unfold allocFields
    refine SameComments.trans ?_ (allocFields_comments parent fs _ ?_)
    · intro o
      cases o with
      | field p => exact elim_upd (elim_new (hf _ (Nat.le_refl _)) rfl) p
      | _ => rfl
    · intro p hp
      dsimp only at hp ⊢
      rw [upd_ne _ _ (Nat.ne_of_gt hp)]
      exact hf p (Nat.le_of_succ_le hp)

theorem allocEmbeds_comments (parent : Ptr) : ∀ (es : List Symbol) (h : Heap), (∀ p, h.next ≤ p → h.embeds p = none) →
    SameComments h (allocEmbeds h parent es).2
  | [], _, _ => fun _ => rfl
  | e :: es, h, hf => by
    unfold allocEmbeds
    refine SameComments.trans ?_ (allocEmbeds_comments parent es _ ?_)
    · intro o
      cases o with
      | embed p => exact elim_upd (elim_new (hf _ (Nat.le_refl _)) rfl) p
      | _ => rfl
    · intro p hp
      dsimp only at hp ⊢
      rw [upd_ne _ _ (Nat.ne_of_gt hp)]
      exact hf p (Nat.le_of_succ_le hp)

theorem allocMethods_comments (parent : Ptr) : ∀ (ms : List MethodType) (h : Heap), (∀ p, h.next ≤ p → h.methods p = none) →
    SameComments h (allocMethods h parent ms).2
  | [], _, _ => fun _ => rfl
  | m :: ms, h, hf => by
    unfold allocMethods
    refine SameComments.trans ?_ (allocMethods_comments parent ms _ ?_)
    · intro o
      cases o with
      | method p => exact elim_upd (elim_new (hf _ (Nat.le_refl _)) rfl) p
      | _ => rfl
    · intro p hp
      dsimp only at hp ⊢
      rw [upd_ne _ _ (Nat.ne_of_gt hp)]
      exact hf p (Nat.le_of_succ_le hp)

theorem allocFields_types (parent : Ptr) : ∀ (fs : List FieldType) (h : Heap), (allocFields h parent fs).2.types = h.types
  | [], _ => rfl
  | ⟨name, t, tag⟩ :: fs, h => by unfold allocFields; exact allocFields_types parent fs _

theorem allocEmbeds_same (parent : Ptr) : ∀ (es : List Symbol) (h : Heap), (allocEmbeds h parent es).2.types = h.types ∧
    (allocEmbeds h parent es).2.methods = h.methods ∧ h.next ≤ (allocEmbeds h parent es).2.next
  | [], _ => ⟨rfl, rfl, Nat.le_refl _⟩
  | e :: es, h => by
    unfold allocEmbeds
    obtain ⟨h1, h2, h3⟩ := allocEmbeds_same parent es { h with
      embeds := upd h.embeds h.next { type := e, parent := some parent }, next := h.next + 1 }
    exact ⟨h1, h2, Nat.le_trans (Nat.le_succ _) h3⟩

theorem allocMethods_types (parent : Ptr) : ∀ (ms : List MethodType) (h : Heap), (allocMethods h parent ms).2.types = h.types
  | [], _ => rfl
  | m :: ms, h => by unfold allocMethods; exact allocMethods_types parent ms _

/-- A spec is stored without comment where none was. -/
theorem SameComments.fillType {h h' : Heap} {p : Ptr} {ts : TypeSpec} (hs : SameComments h h') (hp : h'.types p = none)
    (hc : ts.comment = []) : SameComments h { h' with types := upd h'.types p ts } := by
  refine hs.trans ?_
  intro o
  cases o with
  | type q => exact elim_upd (elim_new hp hc) q
  | _ => rfl

theorem newTypeSpec_comments {h h' : Heap} {n : GoString} {t : TypeRef} {p : Ptr} (hf : h.Fresh)
    (hn : newTypeSpec h n t = .ok (p, h')) : SameComments h h' := by
  have new : ∀ ts : TypeSpec, ts.comment = [] → SameComments h (h.allocType ts).2 := by
    intro ts hc o
    cases o with
    | type q => exact elim_upd (elim_new (hf.types _ (Nat.le_refl _)) hc) q
    | _ => rfl
  cases t with
  | nil => cases hn
  | spec q =>
    obtain ⟨t, -, hn⟩ := bind_eq_ok hn
    obtain ⟨u, -, hn⟩ := bind_eq_ok hn
    cases hn
    apply new
    split <;> rfl
  | name t =>
    unfold newTypeSpec at hn
    dsimp only at hn
    split at hn
    · cases hn
    · rename_i fs
      cases hn
      refine SameComments.fillType (SameComments.trans (b := { h with next := h.next + 1 }) (fun _ => rfl)
        (allocFields_comments _ fs _ fun p hp => hf.fields p (Nat.le_of_succ_le hp))) ?_ rfl
      rw [allocFields_types]
      exact hf.types _ (Nat.le_refl _)
    · rename_i ms es
      cases hn
      obtain ⟨h1, h2, h3⟩ := allocEmbeds_same h.next es { h with next := h.next + 1 }
      refine SameComments.fillType (SameComments.trans (b := { h with next := h.next + 1 }) (fun _ => rfl)
        (SameComments.trans (allocEmbeds_comments _ es _ fun p hp => hf.embeds p (Nat.le_of_succ_le hp))
          (allocMethods_comments _ ms _ fun p hp => ?_))) ?_ rfl
      · rw [h2]; exact hf.methods p (Nat.le_trans (Nat.le_succ _) (Nat.le_trans h3 hp))
      · rw [allocMethods_types, h1]
        exact hf.types _ (Nat.le_refl _)
    · cases hn
      exact new _ rfl

theorem collectFields_comments (parent : Ptr) : ∀ (fs : List Ptr) {h h' : Heap} {l : List FieldType},
    collectFields parent h fs = .ok (l, h') → SameComments h h' ∧ h'.types = h.types
  | [], h, h', l, hc => by cases hc; exact ⟨fun _ => rfl, rfl⟩
  | p :: ps, h, h', l, hc => by
    obtain ⟨f, h1, hc⟩ := bind_eq_ok hc
    obtain ⟨t, -, hc⟩ := bind_eq_ok hc
    obtain ⟨⟨l', g⟩, h3, hc⟩ := bind_eq_ok hc
    cases hc
    obtain ⟨h4, h5⟩ := collectFields_comments parent ps h3
    refine ⟨SameComments.trans ?_ h4, h5⟩
    intro o
    cases o with
    | field q => exact elim_upd (elim_old (deref_eq_ok h1) (by rfl)) q
    | _ => rfl

theorem collectElems_comments (parent : Ptr) : ∀ (es : List IfaceElem) {h h' : Heap} {l : List Symbol} {l' : List MethodType},
    collectElems parent h es = .ok (l, l', h') → SameComments h h' ∧ h'.types = h.types
  | [], h, h', l, l', hc => by cases hc; exact ⟨fun _ => rfl, rfl⟩
  | .embed p :: es, h, h', l, l', hc => by
    obtain ⟨f, h1, hc⟩ := bind_eq_ok hc
    obtain ⟨⟨a, b, g⟩, h3, hc⟩ := bind_eq_ok hc
    cases hc
    obtain ⟨h4, h5⟩ := collectElems_comments parent es h3
    refine ⟨SameComments.trans ?_ h4, h5⟩
    intro o
    cases o with
    | embed q => exact elim_upd (elim_old (deref_eq_ok h1) (by rfl)) q
    | _ => rfl
  | .method p :: es, h, h', l, l', hc => by
    obtain ⟨f, h1, hc⟩ := bind_eq_ok hc
    obtain ⟨⟨a, b, g⟩, h3, hc⟩ := bind_eq_ok hc
    cases hc
    obtain ⟨h4, h5⟩ := collectElems_comments parent es h3
    refine ⟨SameComments.trans ?_ h4, h5⟩
    intro o
    cases o with
    | method q => exact elim_upd (elim_old (deref_eq_ok h1) (by rfl)) q
    | _ => rfl

theorem CodeCall.exec_comments {cb cb' : CodeBlock} {h h' : Heap} {c : CodeCall} (hc : c.exec cb h = .ok (cb', h')) :
    SameComments h h' ∧ h'.funcs = h.funcs := by
  cases c with
  | addCode b =>
    obtain ⟨code, _, hc⟩ := bind_eq_ok hc
    cases hc
    exact ⟨fun _ => rfl, rfl⟩
  | _ => cases hc; exact ⟨fun o => by cases o <;> rfl, rfl⟩

theorem newBlock_comments {h h' : Heap} {c : Option CodeCall} {p : Ptr} (hn : newBlock h c = .ok (p, h')) : SameComments h h' := by
  unfold newBlock at hn
  cases c with
  | none => cases hn; intro o; cases o <;> rfl
  | some c =>
    obtain ⟨⟨cb, h1⟩, h2, hn⟩ := bind_eq_ok hn
    cases hn
    intro o
    refine Eq.trans ?_ (((CodeCall.exec_comments h2).1 o).trans ?_)
    · cases o <;> rfl
    · cases o <;> rfl

theorem addElement_comments {h h' : Heap} {f : Ptr} {e : FileElem} (ha : addElement h f e = .ok h') : SameComments h h' := by
  obtain ⟨g, h1, ha⟩ := bind_eq_ok ha
  obtain ⟨F, -, ha⟩ := bind_eq_ok ha
  cases ha
  refine SameComments.trans (b := g) ?_ (fun o => by cases o <;> rfl)
  intro o
  cases e with
  | values p =>
    obtain ⟨d, -, h1⟩ := bind_eq_ok h1
    obtain ⟨m, h2, h1⟩ := bind_eq_ok h1
    cases h1
    cases o with
    | value q => exact elim_setParents (fun _ => by rfl) _ h2 q
    | _ => rfl
  | types p =>
    obtain ⟨d, -, h1⟩ := bind_eq_ok h1
    obtain ⟨m, h2, h1⟩ := bind_eq_ok h1
    cases h1
    cases o with
    | type q => exact elim_setParents (fun _ => by rfl) _ h2 q
    | _ => rfl
  | func p =>
    obtain ⟨m, h2, h1⟩ := bind_eq_ok h1
    cases h1
    cases o with
    | func q => exact elim_setParents (fun _ => by rfl) _ h2 q
    | _ => rfl

theorem elim_setComment {α : Type} {c : α → GoString} {m m' : Ptr → Option α} {p : Ptr} {f : α → α} {x : GoString}
    (hm : modAt m p f = .ok m') (hf : ∀ a, c (f a) = x) (q : Ptr) :
    (m' q).elim [] c = if p = q then x else (m q).elim [] c := by
  obtain ⟨a, ha, rfl⟩ := modAt_ok hm
  by_cases hq : q = p
  · subst hq; rw [upd_same, if_pos rfl]; exact hf a
  · rw [upd_ne _ _ hq, if_neg fun h => hq h.symm]

/-- Only `SetComment` changes comments, and new objects have none. -/
theorem BuildCall.exec_comment {c : BuildCall} {h h' : Heap} (hf : h.Fresh) (hc : c.exec h = .ok h') (o : Obj) :
    h'.commentOf o = (c.comment? o).getD (h.commentOf o) := by
  have same : (∀ o' x, c ≠ .setComment o' x) → SameComments h h' → h'.commentOf o = (c.comment? o).getD (h.commentOf o) := by
    intro h1 h2
    rw [h2 o]
    cases c with
    | setComment o' x => exact absurd rfl (h1 o' x)
    | _ => rfl
  cases c with
  | newValue kind names =>
    cases hc
    refine same nofun fun o => ?_
    cases o with
    | value q => exact elim_upd (elim_new (hf.values _ (Nat.le_refl _)) rfl) q
    | _ => rfl
  | newValueDecl kind specs =>
    cases hc
    refine same nofun fun o => ?_
    cases o with
    | valueDecl q => exact elim_upd (elim_new (hf.valueDecls _ (Nat.le_refl _)) rfl) q
    | _ => rfl
  | newTypeDecl types =>
    cases hc
    refine same nofun fun o => ?_
    cases o with
    | typeDecl q => exact elim_upd (elim_new (hf.typeDecls _ (Nat.le_refl _)) rfl) q
    | _ => rfl
  | newTypeSpec name t =>
    obtain ⟨p, hc⟩ := built_ok hc
    exact same nofun (newTypeSpec_comments hf hc)
  | newTypeAlias name t =>
    obtain ⟨p, hc⟩ := built_ok hc
    obtain ⟨⟨p, g⟩, h1, hc⟩ := bind_eq_ok hc
    obtain ⟨ts, h2, hc⟩ := bind_eq_ok hc
    cases hc
    refine same nofun ((newTypeSpec_comments hf h1).trans fun o => ?_)
    cases o with
    | type q => exact elim_upd (elim_old (deref_eq_ok h2) (by rfl)) q
    | _ => rfl
  | newStructTypeSpec name fields =>
    obtain ⟨p, hc⟩ := built_ok hc
    obtain ⟨⟨l, g⟩, h1, hc⟩ := bind_eq_ok hc
    cases hc
    obtain ⟨h2, h3⟩ := collectFields_comments _ _ h1
    refine same nofun (SameComments.fillType (SameComments.trans (fun _ => rfl) h2) ?_ rfl)
    rw [h3]
    exact hf.types _ (Nat.le_refl _)
  | newInterfaceTypeSpec name elems =>
    obtain ⟨p, hc⟩ := built_ok hc
    obtain ⟨⟨l, l', g⟩, h1, hc⟩ := bind_eq_ok hc
    cases hc
    obtain ⟨h2, h3⟩ := collectElems_comments _ _ h1
    refine same nofun (SameComments.fillType (SameComments.trans (fun _ => rfl) h2) ?_ rfl)
    rw [h3]
    exact hf.types _ (Nat.le_refl _)
  | newField name t =>
    cases hc
    refine same nofun fun o => ?_
    cases o with
    | field q => exact elim_upd (elim_new (hf.fields _ (Nat.le_refl _)) rfl) q
    | _ => rfl
  | newInterfaceEmbed s =>
    cases hc
    refine same nofun fun o => ?_
    cases o with
    | embed q => exact elim_upd (elim_new (hf.embeds _ (Nat.le_refl _)) rfl) q
    | _ => rfl
  | newInterfaceMethod name =>
    cases hc
    refine same nofun fun o => ?_
    cases o with
    | method q => exact elim_upd (elim_new (hf.methods _ (Nat.le_refl _)) rfl) q
    | _ => rfl
  | newFunc receiver name =>
    cases hc
    refine same nofun fun o => ?_
    cases o with
    | func q => exact elim_upd (elim_new (hf.funcs _ (Nat.le_refl _)) rfl) q
    | _ => rfl
  | newBlock call =>
    obtain ⟨p, hc⟩ := built_ok hc
    exact same nofun (newBlock_comments hc)
  | newFile fileName packagePath packageName =>
    obtain ⟨p, hc⟩ := built_ok hc
    obtain ⟨f, -, hc⟩ := bind_eq_ok hc
    cases hc
    exact same nofun fun o => by cases o <;> rfl
  | setComment o' x =>
    clear same
    have key : h'.commentOf o = if o' = o then x else h.commentOf o := by
      cases o' with
      | _ p =>
        obtain ⟨m, h1, hc⟩ := bind_eq_ok hc
        cases hc
        cases o with
        | _ q => first
          | (rw [if_neg (by nofun)]; rfl)
          | (refine (elim_setComment h1 (fun _ => by rfl) q).trans ?_
             by_cases hpq : p = q
             · subst hpq; rw [if_pos rfl, if_pos rfl]
             · rw [if_neg hpq, if_neg fun h => hpq (by injection h)]; rfl)
    rw [key]
    simp only [BuildCall.comment?]
    split <;> rfl
  | setType p t =>
    obtain ⟨m, h1, hc⟩ := bind_eq_ok hc
    cases hc
    refine same nofun fun o => ?_
    cases o with
    | value q => exact elim_modAt h1 (fun _ => by rfl) q
    | _ => rfl
  | setInitializer p b =>
    obtain ⟨m, h1, hc⟩ := bind_eq_ok hc
    cases hc
    refine same nofun fun o => ?_
    cases o with
    | value q => exact elim_modAt h1 (fun _ => by rfl) q
    | _ => rfl
  | initWith p format args =>
    obtain ⟨⟨b, g⟩, h0, hc⟩ := bind_eq_ok hc
    obtain ⟨m, h1, hc⟩ := bind_eq_ok hc
    cases hc
    refine same nofun ((newBlock_comments h0).trans fun o => ?_)
    cases o with
    | value q => exact elim_modAt h1 (fun _ => by rfl) q
    | _ => rfl
  | setTag p tag =>
    obtain ⟨m, h1, hc⟩ := bind_eq_ok hc
    cases hc
    refine same nofun fun o => ?_
    cases o with
    | field q => exact elim_modAt h1 (fun _ => by rfl) q
    | _ => rfl
  | methodSig p k =>
    obtain ⟨m, h1, hc⟩ := bind_eq_ok hc
    cases hc
    refine same nofun fun o => ?_
    cases o with
    | method q => exact elim_modAt h1 (fun _ => by rfl) q
    | _ => rfl
  | funcSig p k =>
    obtain ⟨m, h1, hc⟩ := bind_eq_ok hc
    cases hc
    refine same nofun fun o => ?_
    cases o with
    | func q => exact elim_modAt h1 (fun _ => by rfl) q
    | _ => rfl
  | funcCode p k =>
    obtain ⟨f, h0, hc⟩ := bind_eq_ok hc
    obtain ⟨⟨cb, g⟩, h1, hc⟩ := bind_eq_ok hc
    cases hc
    obtain ⟨h2, h3⟩ := CodeCall.exec_comments h1
    refine same nofun (h2.trans fun o => ?_)
    cases o with
    | func q => exact elim_upd (elim_old (by rw [h3]; exact deref_eq_ok h0) (by rfl)) q
    | _ => rfl
  | blockCode p k =>
    obtain ⟨f, h0, hc⟩ := bind_eq_ok hc
    obtain ⟨⟨cb, g⟩, h1, hc⟩ := bind_eq_ok hc
    cases hc
    exact same nofun ((CodeCall.exec_comments h1).1.trans fun o => by cases o <;> rfl)
  | fileField p k s =>
    obtain ⟨m, h1, hc⟩ := bind_eq_ok hc
    cases hc
    exact same nofun fun o => by cases o <;> rfl
  | addElement f e => exact same nofun (addElement_comments hc)
  | addValue f kind s =>
    refine same nofun (SameComments.trans ?_ (addElement_comments hc))
    intro o
    cases o with
    | valueDecl q => exact elim_upd (elim_new (hf.valueDecls _ (Nat.le_refl _)) rfl) q
    | _ => rfl
  | addType f t =>
    refine same nofun (SameComments.trans ?_ (addElement_comments hc))
    intro o
    cases o with
    | typeDecl q => exact elim_upd (elim_new (hf.typeDecls _ (Nat.le_refl _)) rfl) q
    | _ => rfl
  | declAddValue d s =>
    obtain ⟨D, h1, hc⟩ := bind_eq_ok hc
    cases hc
    refine same nofun fun o => ?_
    cases o with
    | valueDecl q => exact elim_upd (elim_old (deref_eq_ok h1) (by rfl)) q
    | _ => rfl
  | declAddType d t =>
    obtain ⟨D, h1, hc⟩ := bind_eq_ok hc
    cases hc
    refine same nofun fun o => ?_
    cases o with
    | typeDecl q => exact elim_upd (elim_old (deref_eq_ok h1) (by rfl)) q
    | _ => rfl

end Gopoet
