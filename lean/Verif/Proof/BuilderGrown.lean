import Verif.Proof.BuilderLemmas
import Verif.Proof.DeclLemmas
/-! Constructors make objects and change none, but for parents. -/

namespace Gopoet

theorem allocFields_grown (par : Ptr) : ∀ (fs : List FieldType) {h : Heap}, h.Fresh →
    Grown h (allocFields h par fs).2 ∧ (allocFields h par fs).2.types = h.types := by
  intro fs
  induction fs with
  | nil => intro h hf; exact ⟨.refl hf, rfl⟩
  | cons f fs ih =>
    intro h hf
    obtain ⟨name, t, tag⟩ := f
    have g := Grown.allocFields hf { name, type := (match t with | .nil => .nil | t => .name t), tag, parent := some par }
    obtain ⟨h1, h2⟩ := ih g.fresh
    exact ⟨g.trans h1, h2⟩

theorem allocEmbeds_grown (par : Ptr) : ∀ (es : List Symbol) {h : Heap}, h.Fresh →
    Grown h (allocEmbeds h par es).2 ∧ (allocEmbeds h par es).2.types = h.types := by
  intro es
  induction es with
  | nil => intro h hf; exact ⟨.refl hf, rfl⟩
  | cons e es ih =>
    intro h hf
    have g := Grown.allocEmbeds hf { type := e, parent := some par }
    obtain ⟨h1, h2⟩ := ih g.fresh
    exact ⟨g.trans h1, h2⟩

theorem allocMethods_grown (par : Ptr) : ∀ (ms : List MethodType) {h : Heap}, h.Fresh →
    Grown h (allocMethods h par ms).2 ∧ (allocMethods h par ms).2.types = h.types := by
  intro ms
  induction ms with
  | nil => intro h hf; exact ⟨.refl hf, rfl⟩
  | cons m ms ih =>
    intro h hf
    have g := Grown.allocMethods hf { name := m.name, signature := m.signature, parent := some par }
    obtain ⟨h1, h2⟩ := ih g.fresh
    exact ⟨g.trans h1, h2⟩

/-- Storing a type at an address that was set aside. -/
theorem Grown.fillType {h g : Heap} (hg : Grown { h with next := h.next + 1 } g) (hf : h.Fresh)
    (ht : g.types h.next = none) (t : TypeSpec) :
    Grown h { g with types := upd g.types h.next t } := by
  refine (Grown.bump hf (Nat.le_succ _)).trans (hg.trans ?_)
  exact { Grown.refl hg.fresh with
    next := Nat.le_refl _
    fresh := hg.fresh.setTypes (n := g.next) hg.next (Nat.le_refl _) t
    types := .upd TypeSpec.Kin.refl ht t }

theorem newTypeSpec_grown {h h' : Heap} {name : GoString} {t : TypeRef} {p : Ptr} (hf : h.Fresh)
    (hn : newTypeSpec h name t = .ok (p, h')) :
    Grown h h' ∧ p = h.next ∧ h.next < h'.next ∧
      ∃ ts, h'.types p = some ts ∧ ts.comment = [] ∧ ts.name = name ∧ ts.isAlias = false := by
  have hfb : ({ h with next := h.next + 1 } : Heap).Fresh := hf.bump (Nat.le_succ _)
  have plain : ∀ ts : TypeSpec, Grown h (h.allocType ts).2 ∧ (h.allocType ts).1 = h.next ∧
      h.next < (h.allocType ts).2.next ∧ (h.allocType ts).2.types h.next = some ts := fun ts =>
    ⟨Grown.allocTypes hf ts, rfl, Nat.lt_succ_self _, upd_same _ _ _⟩
  unfold newTypeSpec at hn
  split at hn
  · cases hn
  · obtain ⟨t, _, hn⟩ := bind_eq_ok hn
    obtain ⟨u, _, hn⟩ := bind_eq_ok hn
    cases hn
    obtain ⟨h1, h2, h3, h4⟩ := plain (if t.name = [] then
        { name, underlying := u, structBody := t.structBody, interfaceBody := t.interfaceBody }
      else { name, underlying := u })
    refine ⟨h1, h2, h3, _, h4, ?_⟩
    split <;> exact ⟨rfl, rfl, rfl⟩
  · split at hn
    · cases hn
    · rename_i fs
      cases hn
      obtain ⟨g1, g2⟩ := allocFields_grown h.next fs hfb
      refine ⟨g1.fillType hf (by rw [g2]; exact hf.types _ (Nat.le_refl _)) _, rfl, g1.next, _,
        upd_same _ _ _, rfl, rfl, rfl⟩
    · rename_i ms es
      cases hn
      obtain ⟨g1, g2⟩ := allocEmbeds_grown h.next es hfb
      obtain ⟨g3, g4⟩ := allocMethods_grown h.next ms g1.fresh
      refine ⟨(g1.trans g3).fillType hf (by rw [g4, g2]; exact hf.types _ (Nat.le_refl _)) _, rfl,
        (g1.trans g3).next, _, upd_same _ _ _, rfl, rfl, rfl⟩
    · cases hn
      exact ⟨(plain _).1, rfl, Nat.lt_succ_self _, _, upd_same _ _ _, rfl, rfl, rfl⟩

theorem newTypeAlias_grown {h h' : Heap} {name : GoString} {t : TypeRef} {p : Ptr} (hf : h.Fresh)
    (hn : newTypeAlias h name t = .ok (p, h')) :
    Grown h h' ∧ p = h.next ∧
      ∃ ts, h'.types p = some ts ∧ ts.comment = [] ∧ ts.name = name ∧ ts.isAlias = true := by
  obtain ⟨⟨q, g⟩, h1, hn⟩ := bind_eq_ok hn
  obtain ⟨ts, h2, hn⟩ := bind_eq_ok hn
  cases hn
  obtain ⟨h3, rfl, h4, ts', h5, h6, h7, h8⟩ := newTypeSpec_grown hf h1
  dsimp only at h2
  rw [deref, h5] at h2
  cases h2
  refine ⟨?_, rfl, _, upd_same _ _ _, h6, h7, rfl⟩
  refine { h3 with
    next := h3.next
    fresh := h3.fresh.setTypes (n := g.next) h4 (Nat.le_refl _) _
    types := ?_ }
  intro r a ha
  obtain ⟨a', h9, h10⟩ := h3.types r a ha
  refine ⟨a', ?_, h10⟩
  rw [← h9]
  exact upd_ne _ _ (Nat.ne_of_lt (lt_next hf.types ha))

/-- Setting the parent of what is at an address. -/
theorem collectFields_grown (par : Ptr) : ∀ (ps : List Ptr) {h h' : Heap} {fs : List FieldType}, h.Fresh →
    collectFields par h ps = .ok (fs, h') → Grown h h' ∧ h'.types = h.types ∧ h'.next = h.next := by
  intro ps
  induction ps with
  | nil => intro h h' fs hf hc; cases hc; exact ⟨.refl hf, rfl, rfl⟩
  | cons p ps ih =>
    intro h h' fs hf hc
    unfold collectFields at hc
    obtain ⟨f, h1, hc⟩ := bind_eq_ok hc
    obtain ⟨t, _, hc⟩ := bind_eq_ok hc
    obtain ⟨⟨fs', h2⟩, h3, hc⟩ := bind_eq_ok hc
    cases hc
    have hp : h.fields p = some f := by
      unfold deref at h1; split at h1
      · rename_i a ha; cases h1; exact ha
      · cases h1
    have g : Grown h { h with fields := upd h.fields p { f with parent := some par } } :=
      { Grown.refl hf with
        next := Nat.le_refl _
        fresh := hf.setFields (n := h.next) (lt_next hf.fields hp) (Nat.le_refl _) _
        fields := by
          intro q a ha
          by_cases hq : q = p
          · subst hq
            rw [hp] at ha; cases ha
            exact ⟨_, upd_same _ _ _, some par, rfl⟩
          · exact ⟨a, by rw [← ha]; exact upd_ne _ _ hq, FieldSpec.Kin.refl a⟩ }
    obtain ⟨g1, g2, g3⟩ := ih g.fresh h3
    exact ⟨g.trans g1, g2, g3⟩

theorem collectElems_grown (par : Ptr) : ∀ (es : List IfaceElem) {h h' : Heap} {ss : List Symbol}
    {ms : List MethodType}, h.Fresh → collectElems par h es = .ok (ss, ms, h') →
    Grown h h' ∧ h'.types = h.types ∧ h'.next = h.next := by
  intro es
  induction es with
  | nil => intro h h' ss ms hf hc; cases hc; exact ⟨.refl hf, rfl, rfl⟩
  | cons e es ih =>
    intro h h' ss ms hf hc
    cases e with
    | embed p =>
      unfold collectElems at hc
      obtain ⟨f, h1, hc⟩ := bind_eq_ok hc
      obtain ⟨⟨ss', ms', h2⟩, h3, hc⟩ := bind_eq_ok hc
      cases hc
      have hp : h.embeds p = some f := by
        unfold deref at h1; split at h1
        · rename_i a ha; cases h1; exact ha
        · cases h1
      have g : Grown h { h with embeds := upd h.embeds p { f with parent := some par } } :=
        { Grown.refl hf with
          next := Nat.le_refl _
          fresh := hf.setEmbeds (n := h.next) (lt_next hf.embeds hp) (Nat.le_refl _) _
          embeds := by
            intro q a ha
            by_cases hq : q = p
            · subst hq
              rw [hp] at ha; cases ha
              exact ⟨_, upd_same _ _ _, some par, rfl⟩
            · exact ⟨a, by rw [← ha]; exact upd_ne _ _ hq, InterfaceEmbed.Kin.refl a⟩ }
      obtain ⟨g1, g2, g3⟩ := ih g.fresh h3
      exact ⟨g.trans g1, g2, g3⟩
    | method p =>
      unfold collectElems at hc
      obtain ⟨f, h1, hc⟩ := bind_eq_ok hc
      obtain ⟨⟨ss', ms', h2⟩, h3, hc⟩ := bind_eq_ok hc
      cases hc
      have hp : h.methods p = some f := by
        unfold deref at h1; split at h1
        · rename_i a ha; cases h1; exact ha
        · cases h1
      have g : Grown h { h with methods := upd h.methods p { f with parent := some par } } :=
        { Grown.refl hf with
          next := Nat.le_refl _
          fresh := hf.setMethods (n := h.next) (lt_next hf.methods hp) (Nat.le_refl _) _
          methods := by
            intro q a ha
            by_cases hq : q = p
            · subst hq
              rw [hp] at ha; cases ha
              exact ⟨_, upd_same _ _ _, some par, rfl⟩
            · exact ⟨a, by rw [← ha]; exact upd_ne _ _ hq, InterfaceMethod.Kin.refl a⟩ }
      obtain ⟨g1, g2, g3⟩ := ih g.fresh h3
      exact ⟨g.trans g1, g2, g3⟩

theorem newStructTypeSpec_grown {h h' : Heap} {name : GoString} {fs : List Ptr} {p : Ptr} (hf : h.Fresh)
    (hn : newStructTypeSpec h name fs = .ok (p, h')) :
    Grown h h' ∧ p = h.next ∧ ∃ ts, h'.types p = some ts ∧ ts.comment = [] ∧ ts.name = name ∧
      ts.isAlias = false ∧ ts.structBody = fs := by
  obtain ⟨⟨ft, g⟩, h1, hn⟩ := bind_eq_ok hn
  cases hn
  obtain ⟨g1, g2, g3⟩ := collectFields_grown h.next fs (hf.bump (Nat.le_succ _)) h1
  exact ⟨g1.fillType hf (by rw [g2]; exact hf.types _ (Nat.le_refl _)) _, rfl, _, upd_same _ _ _,
    rfl, rfl, rfl, rfl⟩

theorem newInterfaceTypeSpec_grown {h h' : Heap} {name : GoString} {es : List IfaceElem} {p : Ptr}
    (hf : h.Fresh) (hn : newInterfaceTypeSpec h name es = .ok (p, h')) :
    Grown h h' ∧ p = h.next ∧ ∃ ts, h'.types p = some ts ∧ ts.comment = [] ∧ ts.name = name ∧
      ts.isAlias = false ∧ ts.interfaceBody = es := by
  obtain ⟨⟨ss, ms, g⟩, h1, hn⟩ := bind_eq_ok hn
  cases hn
  obtain ⟨g1, g2, g3⟩ := collectElems_grown h.next es (hf.bump (Nat.le_succ _)) h1
  exact ⟨g1.fillType hf (by rw [g2]; exact hf.types _ (Nat.le_refl _)) _, rfl, _, upd_same _ _ _,
    rfl, rfl, rfl, rfl⟩

/-- What a call that adds to a block adds. -/
theorem CodeCall.exec_grown {cb cb' : CodeBlock} {h h' : Heap} {c : CodeCall} (hf : h.Fresh)
    (hc : c.exec cb h = .ok (cb', h')) :
    Grown h h' ∧ h'.blocks = h.blocks ∧ h'.funcs = h.funcs ∧ ∃ l, cb' = cb ++ l := by
  cases c with
  | print text =>
    cases hc; exact ⟨Grown.allocArgs hf _, rfl, rfl, _, rfl⟩
  | println text =>
    cases hc; exact ⟨Grown.allocArgs hf _, rfl, rfl, _, rfl⟩
  | printf format args =>
    cases hc; exact ⟨Grown.allocArgs hf _, rfl, rfl, _, rfl⟩
  | printlnf format args =>
    cases hc; exact ⟨Grown.allocArgs hf _, rfl, rfl, _, rfl⟩
  | renderCode t data =>
    cases hc; exact ⟨Grown.allocTempls hf _, rfl, rfl, _, rfl⟩
  | addCode b =>
    obtain ⟨code, _, hc⟩ := bind_eq_ok hc
    cases hc
    exact ⟨.refl hf, rfl, rfl, _, rfl⟩

theorem newBlock_grown {h h' : Heap} {c : Option CodeCall} {p : Ptr} (hf : h.Fresh)
    (hn : newBlock h c = .ok (p, h')) :
    Grown h h' ∧ p = h.next := by
  have g := Grown.allocBlocks hf []
  unfold newBlock at hn
  cases c with
  | none => cases hn; exact ⟨g, rfl⟩
  | some c =>
    obtain ⟨⟨cb, h1⟩, h2, hn⟩ := bind_eq_ok hn
    cases hn
    obtain ⟨g1, g2, _⟩ := CodeCall.exec_grown g.fresh h2
    refine ⟨?_, rfl⟩
    refine { g.trans g1 with
      next := (g.trans g1).next
      fresh := g1.fresh.setBlocks (n := h1.next) g1.next (Nat.le_refl _) _
      blocks := ?_ }
    intro q a ha
    refine ⟨a, ?_, rfl⟩
    have hq : q ≠ h.next := Nat.ne_of_lt (lt_next hf.blocks ha)
    dsimp only
    rw [upd_ne _ _ hq, g2]
    dsimp only
    rw [upd_ne _ _ hq, ha]

theorem allocFile_grown {h h' : Heap} {n pp pn : GoString} {p : Ptr} (hf : h.Fresh)
    (hn : allocFile h n pp pn = .ok (p, h')) :
    Grown h h' ∧ p = h.next := by
  obtain ⟨f, _, hn⟩ := bind_eq_ok hn
  cases hn
  exact ⟨Grown.allocFiles hf f, rfl⟩

/-! ### Adding to files -/

theorem setParents_grown_ok {α : Type} {set : α → α} (keep : α → α → Prop) (hr : ∀ a, keep a a)
    (ht : ∀ a b c, keep a b → keep b c → keep a c) (hk : ∀ a, keep a (set a)) :
    ∀ (ps : List Ptr) {m m' : Ptr → Option α}, setParents set m ps = .ok m' →
      Extends keep m m' ∧ ∀ q, m q = none → m' q = none := by
  intro ps
  induction ps with
  | nil => intro m m' h; cases h; exact ⟨.refl hr _, fun _ h => h⟩
  | cons p ps ih =>
    intro m m' h
    unfold setParents at h
    split at h
    · cases h
    · rename_i a ha
      obtain ⟨h1, h2⟩ := ih h
      have h3 : Extends keep m (upd m p (set a)) := by
        intro q b hb
        by_cases hq : q = p
        · subst hq
          rw [ha] at hb; cases hb
          exact ⟨_, upd_same _ _ _, hk _⟩
        · exact ⟨b, by rw [upd_ne _ _ hq, hb], hr b⟩
      refine ⟨h3.trans ht h1, fun q hq => h2 q ?_⟩
      rw [upd_ne _ _ (by rintro rfl; rw [ha] at hq; cases hq), hq]

theorem setParent_grown {f : Ptr} {h h' : Heap} {e : FileElem} (hf : h.Fresh)
    (hs : e.setParent f h = .ok h') : Grown h h' ∧ h'.files = h.files ∧
      h'.valueDecls = h.valueDecls ∧ h'.typeDecls = h.typeDecls := by
  cases e with
  | values p =>
    obtain ⟨d, _, hs⟩ := bind_eq_ok hs
    obtain ⟨m, h1, hs⟩ := bind_eq_ok hs
    cases hs
    obtain ⟨h2, h3⟩ := setParents_grown_ok ValueSpec.Kin ValueSpec.Kin.refl ValueSpec.Kin.trans
      (fun a => ⟨some f, rfl⟩) _ h1
    exact ⟨{ Grown.refl hf with
      next := Nat.le_refl _
      fresh := { hf with values := fun q hq => h3 q (hf.values q hq) }
      values := h2 }, rfl, rfl, rfl⟩
  | types p =>
    obtain ⟨d, _, hs⟩ := bind_eq_ok hs
    obtain ⟨m, h1, hs⟩ := bind_eq_ok hs
    cases hs
    obtain ⟨h2, h3⟩ := setParents_grown_ok TypeSpec.Kin TypeSpec.Kin.refl TypeSpec.Kin.trans
      (fun a => ⟨some f, rfl⟩) _ h1
    exact ⟨{ Grown.refl hf with
      next := Nat.le_refl _
      fresh := { hf with types := fun q hq => h3 q (hf.types q hq) }
      types := h2 }, rfl, rfl, rfl⟩
  | func p =>
    obtain ⟨m, h1, hs⟩ := bind_eq_ok hs
    cases hs
    obtain ⟨h2, h3⟩ := setParents_grown_ok FuncSpec.Kin FuncSpec.Kin.refl FuncSpec.Kin.trans
      (fun a => ⟨some f, rfl⟩) _ h1
    exact ⟨{ Grown.refl hf with
      next := Nat.le_refl _
      fresh := { hf with funcs := fun q hq => h3 q (hf.funcs q hq) }
      funcs := h2 }, rfl, rfl, rfl⟩

/-- `addElement` sets parents and appends the element. -/
theorem addElement_parts {f : Ptr} {h h' : Heap} {e : FileElem} (hf : h.Fresh)
    (ha : addElement h f e = .ok h') : ∃ g file, Grown h g ∧ g.files = h.files ∧
      g.valueDecls = h.valueDecls ∧ g.typeDecls = h.typeDecls ∧
      h.files f = some file ∧
      h' = { g with files := upd g.files f { file with elements := file.elements ++ [e] } } := by
  obtain ⟨g, h1, ha⟩ := bind_eq_ok ha
  obtain ⟨file, h2, ha⟩ := bind_eq_ok ha
  cases ha
  obtain ⟨h3, h4, h5, h6⟩ := setParent_grown hf h1
  refine ⟨g, file, h3, h4, h5, h6, ?_, rfl⟩
  rw [← h4]
  unfold deref at h2; split at h2
  · rename_i a ha; cases h2; exact ha
  · cases h2

end Gopoet
