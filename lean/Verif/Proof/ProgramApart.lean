import Verif.Spec.Apart
import Verif.Proof.ProgramSound
import Verif.Props.Independent
/-! What calls build that keep the files apart has nothing in common. -/

namespace Gopoet

/-- The address of the arguments of a line or of a template. -/
def CodeElem.ptr : CodeElem → Ptr
  | .line _ p | .templ p => p

/-- Everything that belongs to an object has the same owner, and the types that are in `U` are those without names. -/
structure Owned (owner : Ptr → Ptr) (U : Ptr → Prop) (h : Heap) : Prop where
  files : ∀ p f, h.files p = some f → ∀ e ∈ f.elements, owner e.ptr = owner p
  valueDecls : ∀ p d, h.valueDecls p = some d → ∀ q ∈ d.specs, owner q = owner p
  values : ∀ p c, h.values p = some c → (∀ q ∈ c.type.uses, owner q = owner p) ∧ ∀ q, c.init = some q → owner q = owner p
  typeDecls : ∀ p d, h.typeDecls p = some d → ∀ q ∈ d.types, owner q = owner p
  types : ∀ p t, h.types p = some t → (∀ q ∈ t.structBody, owner q = owner p) ∧ (∀ e ∈ t.interfaceBody, owner e.ptr = owner p) ∧
    (t.name = [] → U p)
  fields : ∀ p f, h.fields p = some f → ∀ q ∈ f.type.uses, owner q = owner p
  funcs : ∀ p f, h.funcs p = some f → ∀ x ∈ f.code, owner x.ptr = owner p
  blocks : ∀ p (cb : CodeBlock), h.blocks p = some cb → ∀ x ∈ cb, owner (CodeElem.ptr x) = owner p
  args : ∀ p l, h.args p = some l → ∀ a ∈ l, (∀ q ∈ a.uses, owner q = owner p) ∧ ∀ q ∈ a.types, U q → owner q = owner p
  templs : ∀ p (t : Templ), h.templs p = some t → ∀ q o, (.type q, o) ∈ t.data.shownSpecs → U q → owner q = owner p

variable {owner : Ptr → Ptr} {U : Ptr → Prop} {k : Ptr}

theorem Owned.empty : Owned owner U {} := by
  constructor <;> intro p a h <;> cases h

theorem Owned.allocFields (par : Ptr) : ∀ (fs : List FieldType) {h : Heap}, Owned owner U h →
    (∀ q, h.next ≤ q → q < (Gopoet.allocFields h par fs).2.next → owner q = k) →
    Owned owner U (Gopoet.allocFields h par fs).2 ∧ ∀ q ∈ (Gopoet.allocFields h par fs).1, owner q = k := by
  intro fs
  induction fs with
  | nil => intro h o _; exact ⟨o, fun q hq => nomatch hq⟩
  | cons f fs ih =>
    intro h o hk
    obtain ⟨n, t, tag⟩ := f
    have hlt : h.next + 1 ≤ (Gopoet.allocFields h par (⟨n, t, tag⟩ :: fs)).2.next := by
      obtain ⟨⟨_, _, h1, h2, _⟩, _⟩ := allocFields_spec fs { h with
        fields := upd h.fields h.next { name := n, type := fieldRef t, tag, parent := some par }
        next := h.next + 1 } par
      show _ ≤ (Gopoet.allocFields { h with
        fields := upd h.fields h.next { name := n, type := fieldRef t, tag, parent := some par }
        next := h.next + 1 } par fs).2.next
      rw [h1]; exact h2
    have o' : Owned owner U { h with
        fields := upd h.fields h.next { name := n, type := fieldRef t, tag, parent := some par }
        next := h.next + 1 } :=
      { o with fields := upd_at o.fields (by intro q hq; cases t <;> cases hq) }
    obtain ⟨h1, h2⟩ := ih o' fun q hq hl => hk q (Nat.le_of_succ_le hq) hl
    refine ⟨h1, fun q hq => ?_⟩
    rcases List.mem_cons.1 hq with rfl | hq
    · exact hk _ (Nat.le_refl _) hlt
    · exact h2 q hq

theorem Owned.allocEmbeds (par : Ptr) : ∀ (es : List Symbol) {h : Heap}, Owned owner U h →
    (∀ q, h.next ≤ q → q < (Gopoet.allocEmbeds h par es).2.next → owner q = k) →
    Owned owner U (Gopoet.allocEmbeds h par es).2 ∧ ∀ e ∈ (Gopoet.allocEmbeds h par es).1, owner e.ptr = k := by
  intro es
  induction es with
  | nil => intro h o _; exact ⟨o, fun q hq => nomatch hq⟩
  | cons e es ih =>
    intro h o hk
    have hlt : h.next + 1 ≤ (Gopoet.allocEmbeds h par (e :: es)).2.next := by
      obtain ⟨⟨_, _, h1, h2, _⟩, _⟩ := allocEmbeds_spec es { h with
        embeds := upd h.embeds h.next { type := e, parent := some par }
        next := h.next + 1 } par
      show _ ≤ (Gopoet.allocEmbeds { h with
        embeds := upd h.embeds h.next { type := e, parent := some par }
        next := h.next + 1 } par es).2.next
      rw [h1]; exact h2
    have o' : Owned owner U { h with
        embeds := upd h.embeds h.next { type := e, parent := some par }
        next := h.next + 1 } := { o with }
    obtain ⟨h1, h2⟩ := ih o' fun q hq hl => hk q (Nat.le_of_succ_le hq) hl
    refine ⟨h1, fun q hq => ?_⟩
    rcases List.mem_cons.1 hq with rfl | hq
    · exact hk _ (Nat.le_refl _) hlt
    · exact h2 q hq

theorem Owned.allocMethods (par : Ptr) : ∀ (ms : List MethodType) {h : Heap}, Owned owner U h →
    (∀ q, h.next ≤ q → q < (Gopoet.allocMethods h par ms).2.next → owner q = k) →
    Owned owner U (Gopoet.allocMethods h par ms).2 ∧ ∀ e ∈ (Gopoet.allocMethods h par ms).1, owner e.ptr = k := by
  intro ms
  induction ms with
  | nil => intro h o _; exact ⟨o, fun q hq => nomatch hq⟩
  | cons m ms ih =>
    intro h o hk
    have hlt : h.next + 1 ≤ (Gopoet.allocMethods h par (m :: ms)).2.next := by
      obtain ⟨⟨_, _, h1, h2, _⟩, _⟩ := allocMethods_spec ms { h with
        methods := upd h.methods h.next { name := m.name, signature := m.signature, parent := some par }
        next := h.next + 1 } par
      show _ ≤ (Gopoet.allocMethods { h with
        methods := upd h.methods h.next { name := m.name, signature := m.signature, parent := some par }
        next := h.next + 1 } par ms).2.next
      rw [h1]; exact h2
    have o' : Owned owner U { h with
        methods := upd h.methods h.next { name := m.name, signature := m.signature, parent := some par }
        next := h.next + 1 } := { o with }
    obtain ⟨h1, h2⟩ := ih o' fun q hq hl => hk q (Nat.le_of_succ_le hq) hl
    refine ⟨h1, fun q hq => ?_⟩
    rcases List.mem_cons.1 hq with rfl | hq
    · exact hk _ (Nat.le_refl _) hlt
    · exact h2 q hq

theorem Owned.newTypeSpec {h h' : Heap} (o : Owned owner U h) {n : GoString} {t : TypeRef} {p : Ptr}
    (hn : Gopoet.newTypeSpec h n t = .ok (p, h')) (hu : ∀ q ∈ t.uses, owner q = k) (hU : n = [] → U h.next)
    (hk : ∀ q, h.next ≤ q → q < h'.next → owner q = k) : Owned owner U h' := by
  have ob : Owned owner U { h with next := h.next + 1 } := { o with }
  unfold Gopoet.newTypeSpec at hn
  split at hn
  · cases hn
  · rename_i q
    obtain ⟨ts, h1, hn⟩ := bind_eq_ok hn
    obtain ⟨u, h2, hn⟩ := bind_eq_ok hn
    cases hn
    have hq := o.types _ _ (deref_eq_ok h1)
    rw [hu q (.head _)] at hq
    have hp : owner h.next = k := hk _ (Nat.le_refl _) (Nat.lt_succ_self _)
    exact { o with types := upd_at o.types (by
      rw [hp]
      by_cases hnm : ts.name = []
      · rw [if_pos hnm]
        exact ⟨hq.1, hq.2.1, hU⟩
      · rw [if_neg hnm]
        exact ⟨(fun _ h => nomatch h), (fun _ h => nomatch h), hU⟩) }
  · split at hn
    · cases hn
    · rename_i fs
      cases hn
      have hle : h.next + 1 ≤ (Gopoet.allocFields { h with next := h.next + 1 } h.next fs).2.next := by
        obtain ⟨⟨_, _, h1, h2, _⟩, _⟩ := allocFields_spec fs { h with next := h.next + 1 } h.next
        rw [h1]; exact h2
      have hp : owner h.next = k := hk _ (Nat.le_refl _) hle
      obtain ⟨o', h3⟩ := ob.allocFields h.next fs fun q hq hl => hk q (Nat.le_of_succ_le hq) hl
      exact { o' with types := upd_at o'.types (by
        rw [hp]
        exact ⟨h3, (fun _ h => nomatch h), hU⟩) }
    · rename_i ms es
      cases hn
      obtain ⟨⟨em, nx, h5, h6, _⟩, _⟩ := allocEmbeds_spec es { h with next := h.next + 1 } h.next
      obtain ⟨⟨mm, nx', h7, h8, _⟩, _⟩ := allocMethods_spec ms (Gopoet.allocEmbeds { h with next := h.next + 1 } h.next es).2 h.next
      have e1 : (Gopoet.allocEmbeds { h with next := h.next + 1 } h.next es).2.next = nx := by rw [h5]
      have e2 : (Gopoet.allocMethods (Gopoet.allocEmbeds { h with next := h.next + 1 } h.next es).2 h.next ms).2.next = nx' := by rw [h7]
      rw [e1] at h8
      have hp : owner h.next = k := hk _ (Nat.le_refl _) (by
        show _ < (Gopoet.allocMethods (Gopoet.allocEmbeds { h with next := h.next + 1 } h.next es).2 h.next ms).2.next
        rw [e2]; exact Nat.lt_of_lt_of_le (Nat.lt_succ_self _) (Nat.le_trans h6 h8))
      obtain ⟨o1, h3⟩ := ob.allocEmbeds (k := k) h.next es fun q hq hl => hk q (Nat.le_of_succ_le hq) (by
        show _ < (Gopoet.allocMethods (Gopoet.allocEmbeds { h with next := h.next + 1 } h.next es).2 h.next ms).2.next
        rw [e1] at hl
        rw [e2]; exact Nat.lt_of_lt_of_le hl h8)
      obtain ⟨o', h4⟩ := o1.allocMethods (k := k) h.next ms fun q hq hl => hk q (by
        rw [e1] at hq
        exact Nat.le_of_succ_le (Nat.le_trans h6 hq)) hl
      exact { o' with types := upd_at o'.types (by
        rw [hp]
        refine ⟨(fun _ h => nomatch h), (fun e he => ?_), hU⟩
        rcases List.mem_append.1 he with he | he
        · exact h3 e he
        · exact h4 e he) }
    · cases hn
      exact { o with types := upd_at o.types ⟨(fun _ h => nomatch h), (fun _ h => nomatch h), hU⟩ }

theorem Owned.collectFields (par : Ptr) : ∀ (ps : List Ptr) {h h' : Heap} {fs : List FieldType}, Owned owner U h →
    Gopoet.collectFields par h ps = .ok (fs, h') → Owned owner U h' ∧ h'.next = h.next := by
  intro ps
  induction ps with
  | nil => intro h h' fs o hc; cases hc; exact ⟨o, rfl⟩
  | cons p ps ih =>
    intro h h' fs o hc
    unfold Gopoet.collectFields at hc
    obtain ⟨f, h1, hc⟩ := bind_eq_ok hc
    obtain ⟨t, h2, hc⟩ := bind_eq_ok hc
    obtain ⟨⟨fs', g⟩, h3, hc⟩ := bind_eq_ok hc
    cases hc
    have hp := o.fields _ _ (deref_eq_ok h1)
    exact ih (h := { h with fields := upd h.fields p { f with parent := some par } })
      { o with fields := upd_at o.fields hp } h3

theorem Owned.collectElems (par : Ptr) : ∀ (es : List IfaceElem) {h h' : Heap} {ss : List Symbol}
    {ms : List MethodType}, Owned owner U h → Gopoet.collectElems par h es = .ok (ss, ms, h') →
    Owned owner U h' ∧ h'.next = h.next := by
  intro es
  induction es with
  | nil => intro h h' ss ms o hc; cases hc; exact ⟨o, rfl⟩
  | cons e es ih =>
    intro h h' ss ms o hc
    cases e with
    | embed p =>
      unfold Gopoet.collectElems at hc
      obtain ⟨f, h1, hc⟩ := bind_eq_ok hc
      obtain ⟨⟨ss', ms', g⟩, h3, hc⟩ := bind_eq_ok hc
      cases hc
      exact ih (h := { h with embeds := upd h.embeds p { f with parent := some par } }) { o with } h3
    | method p =>
      unfold Gopoet.collectElems at hc
      obtain ⟨f, h1, hc⟩ := bind_eq_ok hc
      obtain ⟨⟨ss', ms', g⟩, h3, hc⟩ := bind_eq_ok hc
      cases hc
      exact ih (h := { h with methods := upd h.methods p { f with parent := some par } }) { o with } h3

/-- What a call that adds code needs. -/
theorem Owned.code {h h' : Heap} (o : Owned owner U h) {cb cb' : CodeBlock} {c : CodeCall} (hc : c.exec cb h = .ok (cb', h'))
    (hu : ∀ q ∈ c.uses, owner q = k) (ht : ∀ q ∈ c.types, U q → owner q = k) (hcb : ∀ x ∈ cb, owner (CodeElem.ptr x) = k)
    (hk : ∀ q, h.next ≤ q → q < h'.next → owner q = k) :
    Owned owner U h' ∧ h.next ≤ h'.next ∧ ∀ x ∈ cb', owner (CodeElem.ptr x) = k := by
  have hline : ∀ {args format}, c.uses = args.flatMap Arg.uses → c.types = args.flatMap Arg.types →
      cb.printf format args h = (cb', h') → Owned owner U h' ∧ h.next ≤ h'.next ∧ ∀ x ∈ cb', owner (CodeElem.ptr x) = k := by
    intro args format e1 e2 he
    cases he
    have hp : owner h.next = k := hk _ (Nat.le_refl _) (Nat.lt_succ_self _)
    refine ⟨{ o with args := upd_at o.args (by
      rw [hp]
      intro a ha
      exact ⟨fun q hq => hu q (by rw [e1]; exact List.mem_flatMap.2 ⟨a, ha, hq⟩),
        fun q hq => ht q (by rw [e2]; exact List.mem_flatMap.2 ⟨a, ha, hq⟩)⟩) }, Nat.le_succ _, ?_⟩
    intro x hx
    rcases List.mem_append.1 hx with hx | hx
    · exact hcb x hx
    · rw [List.mem_singleton.1 hx]; exact hp
  cases c with
  | renderCode t d =>
    cases hc
    have hp : owner h.next = k := hk _ (Nat.le_refl _) (Nat.lt_succ_self _)
    refine ⟨{ o with templs := upd_at o.templs (by
      rw [hp]
      intro q o hq
      exact ht q (List.mem_filterMap.2 ⟨_, hq, rfl⟩)) }, Nat.le_succ _, ?_⟩
    intro x hx
    rcases List.mem_append.1 hx with hx | hx
    · exact hcb x hx
    · rw [List.mem_singleton.1 hx]; exact hp
  | addCode b =>
    obtain ⟨code, h1, hc⟩ := bind_eq_ok hc
    cases hc
    refine ⟨o, Nat.le_refl _, fun x hx => ?_⟩
    rcases List.mem_append.1 hx with hx | hx
    · exact hcb x hx
    · rw [o.blocks _ _ (deref_eq_ok h1) x hx]; exact hu b (.head _)
  | print text => exact hline (args := [.str text]) rfl rfl (Outcome.ok.inj hc)
  | println text => exact hline (args := [.str text]) rfl rfl (Outcome.ok.inj hc)
  | printf format args => exact hline rfl rfl (Outcome.ok.inj hc)
  | printlnf format args => exact hline rfl rfl (Outcome.ok.inj hc)

theorem Owned.newBlock {h h' : Heap} (o : Owned owner U h) {p : Ptr} {c : Option CodeCall} (hc : Gopoet.newBlock h c = .ok (p, h'))
    (hu : ∀ d, c = some d → (∀ q ∈ d.uses, owner q = k) ∧ ∀ q ∈ d.types, U q → owner q = k)
    (hk : ∀ q, h.next ≤ q → q < h'.next → owner q = k) : Owned owner U h' ∧ owner p = k := by
  unfold Gopoet.newBlock at hc
  have o' : Owned owner U { h with blocks := upd h.blocks h.next [], next := h.next + 1 } :=
    { o with blocks := upd_at o.blocks (fun _ h => nomatch h) }
  cases c with
  | none => cases hc; exact ⟨o', hk _ (Nat.le_refl _) (Nat.lt_succ_self _)⟩
  | some c =>
    obtain ⟨⟨cb, h1⟩, h2, hn⟩ := bind_eq_ok hc
    cases hn
    obtain ⟨hu1, hu2⟩ := hu c rfl
    obtain ⟨o1, hle, hx⟩ := o'.code h2 hu1 hu2 (fun _ h => nomatch h) fun q hq hl => hk q (Nat.le_of_succ_le hq) hl
    have hp : owner h.next = k := hk _ (Nat.le_refl _) hle
    exact ⟨{ o1 with blocks := upd_at o1.blocks (by rw [hp]; exact hx) }, hp⟩

theorem Owned.setParent {h h' : Heap} (o : Owned owner U h) {f : Ptr} {e : FileElem} (he : e.setParent f h = .ok h') :
    Owned owner U h' ∧ h'.next = h.next := by
  cases e with
  | values p =>
    obtain ⟨d, _, he⟩ := bind_eq_ok he
    obtain ⟨m, h1, he⟩ := bind_eq_ok he
    cases he
    exact ⟨{ o with values := (setParents_at (P := fun p (c : ValueSpec) => (∀ q ∈ c.type.uses, owner q = owner p) ∧
      ∀ q, c.init = some q → owner q = owner p) (by exact fun _ _ h => h) _ h1 o.values) }, rfl⟩
  | types p =>
    obtain ⟨d, _, he⟩ := bind_eq_ok he
    obtain ⟨m, h1, he⟩ := bind_eq_ok he
    cases he
    exact ⟨{ o with types := (setParents_at (P := fun p (t : TypeSpec) => (∀ q ∈ t.structBody, owner q = owner p) ∧
      (∀ e ∈ t.interfaceBody, owner e.ptr = owner p) ∧ (t.name = [] → U p)) (by exact fun _ _ h => h) _ h1 o.types) }, rfl⟩
  | func p =>
    obtain ⟨m, h1, he⟩ := bind_eq_ok he
    cases he
    exact ⟨{ o with funcs := (setParents_at (P := fun p (f : FuncSpec) => ∀ x ∈ f.code, owner x.ptr = owner p)
      (by exact fun _ _ h => h) _ h1 o.funcs) }, rfl⟩

theorem Owned.addElement {h h' : Heap} (o : Owned owner U h) {f : Ptr} {e : FileElem} (he : Gopoet.addElement h f e = .ok h')
    (ho : owner e.ptr = owner f) : Owned owner U h' ∧ h'.next = h.next := by
  obtain ⟨g, h1, he⟩ := bind_eq_ok he
  obtain ⟨file, h2, he⟩ := bind_eq_ok he
  cases he
  obtain ⟨og, hn⟩ := o.setParent h1
  have := og.files _ _ (deref_eq_ok h2)
  exact ⟨{ og with files := upd_at og.files (by
    intro x hx
    rcases List.mem_append.1 hx with hx | hx
    · exact this x hx
    · rw [List.mem_singleton.1 hx]; exact ho) }, hn⟩

theorem Owned.exec {h h' : Heap} (o : Owned owner U h) {c : BuildCall} (hc : c.exec h = .ok h')
    (hu : ∀ p ∈ c.uses, owner p = k) (ht : ∀ p ∈ c.types, U p → owner p = k) (hU : c.typeName? = some [] → U h.next)
    (hk : ∀ p, h.next ≤ p → p < h'.next → owner p = k) : Owned owner U h' := by
  cases c with
  | newValue kind names =>
    cases hc
    exact { o with values := upd_at o.values ⟨(fun _ h => nomatch h), (fun _ h => nomatch h)⟩ }
  | newValueDecl kind specs =>
    cases hc
    have hp : owner h.next = k := hk _ (Nat.le_refl _) (Nat.lt_succ_self _)
    exact { o with valueDecls := upd_at o.valueDecls (by rw [hp]; exact hu) }
  | newTypeDecl types =>
    cases hc
    have hp : owner h.next = k := hk _ (Nat.le_refl _) (Nat.lt_succ_self _)
    exact { o with typeDecls := upd_at o.typeDecls (by rw [hp]; exact hu) }
  | newTypeSpec n t =>
    obtain ⟨p, hc⟩ := built_ok hc
    exact o.newTypeSpec hc hu (fun he => hU (by rw [he]; rfl)) hk
  | newTypeAlias n t =>
    obtain ⟨p, hc⟩ := built_ok hc
    obtain ⟨h0, ts, h1, h2, rfl⟩ := C39_alias.1 hc
    have o' := o.newTypeSpec h1 hu (fun he => hU (by rw [he]; rfl)) hk
    have := o'.types _ _ h2
    exact { o' with types := upd_at o'.types this }
  | newStructTypeSpec n fs =>
    obtain ⟨p, hc⟩ := built_ok hc
    obtain ⟨⟨ft, g⟩, h1, hn⟩ := bind_eq_ok hc
    cases hn
    obtain ⟨o', h2⟩ := Owned.collectFields (owner := owner) (U := U) h.next fs (h := { h with next := h.next + 1 }) { o with } h1
    have hp : owner h.next = k := hk _ (Nat.le_refl _) (by show _ < g.next; rw [h2]; exact Nat.lt_succ_self _)
    exact { o' with types := upd_at o'.types (by
      rw [hp]
      exact ⟨hu, (fun _ h => nomatch h), (fun he => hU (by rw [← he]; rfl))⟩) }
  | newInterfaceTypeSpec n es =>
    obtain ⟨p, hc⟩ := built_ok hc
    obtain ⟨⟨ss, ms, g⟩, h1, hn⟩ := bind_eq_ok hc
    cases hn
    obtain ⟨o', h3⟩ := Owned.collectElems (owner := owner) (U := U) h.next es (h := { h with next := h.next + 1 }) { o with } h1
    have hp : owner h.next = k := hk _ (Nat.le_refl _) (by show _ < g.next; rw [h3]; exact Nat.lt_succ_self _)
    exact { o' with types := upd_at o'.types (by
      rw [hp]
      exact ⟨(fun _ h => nomatch h), (fun e he => hu _ (List.mem_map.2 ⟨e, he, rfl⟩)), (fun he => hU (by rw [← he]; rfl))⟩) }
  | newField n t =>
    cases hc
    have hp : owner h.next = k := hk _ (Nat.le_refl _) (Nat.lt_succ_self _)
    exact { o with fields := upd_at o.fields (by rw [hp]; exact hu) }
  | newInterfaceEmbed s => cases hc; exact { o with }
  | newInterfaceMethod n => cases hc; exact { o with }
  | newFunc r n =>
    cases hc
    exact { o with funcs := upd_at o.funcs (fun _ h => nomatch h) }
  | newBlock c =>
    obtain ⟨p, hc⟩ := built_ok hc
    exact (o.newBlock hc (fun d hd => by subst hd; exact ⟨hu, ht⟩) hk).1
  | newFile n pp pn =>
    obtain ⟨p, hc⟩ := built_ok hc
    obtain ⟨f, h1, hc⟩ := bind_eq_ok hc
    cases hc
    exact { o with files := upd_at o.files (by
      unfold newGoFile at h1
      repeat' split at h1
      all_goals cases h1
      exact fun _ h => nomatch h) }
  | setComment ob c =>
    cases ob <;> (obtain ⟨m, h1, hc⟩ := bind_eq_ok hc; cases hc)
    · exact { o with values := (modAt_at (P := fun p (c : ValueSpec) => (∀ q ∈ c.type.uses, owner q = owner p) ∧
        ∀ q, c.init = some q → owner q = owner p) h1 o.values fun _ _ h => h) }
    · exact { o with valueDecls := (modAt_at (P := fun p (d : ValueDecl) => ∀ q ∈ d.specs, owner q = owner p) h1 o.valueDecls
        fun _ _ h => h) }
    · exact { o with types := (modAt_at (P := fun p (t : TypeSpec) => (∀ q ∈ t.structBody, owner q = owner p) ∧
        (∀ e ∈ t.interfaceBody, owner e.ptr = owner p) ∧ (t.name = [] → U p)) h1 o.types fun _ _ h => h) }
    · exact { o with typeDecls := (modAt_at (P := fun p (d : TypeDecl) => ∀ q ∈ d.types, owner q = owner p) h1 o.typeDecls
        fun _ _ h => h) }
    · exact { o with fields := (modAt_at (P := fun p (f : FieldSpec) => ∀ q ∈ f.type.uses, owner q = owner p) h1 o.fields
        fun _ _ h => h) }
    · exact { o with }
    · exact { o with }
    · exact { o with funcs := (modAt_at (P := fun p (f : FuncSpec) => ∀ x ∈ f.code, owner x.ptr = owner p) h1 o.funcs
        fun _ _ h => h) }
  | setType p t =>
    obtain ⟨m, h1, hc⟩ := bind_eq_ok hc; cases hc
    have hp : owner p = k := hu p (.head _)
    obtain ⟨a, ha, rfl⟩ := modAt_ok h1
    have := o.values _ _ ha
    exact { o with values := upd_at o.values ⟨(by rw [hp]; exact fun q hq => hu q (.tail _ hq)), this.2⟩ }
  | setInitializer p b =>
    obtain ⟨m, h1, hc⟩ := bind_eq_ok hc; cases hc
    have hp : owner p = k := hu p (.head _)
    obtain ⟨a, ha, rfl⟩ := modAt_ok h1
    have := o.values _ _ ha
    exact { o with values := upd_at o.values ⟨this.1, (by
      rw [hp]
      intro q hq
      dsimp only at hq
      exact hu q (.tail _ (by rw [hq]; exact .head _)))⟩ }
  | initWith p format args =>
    obtain ⟨⟨q, g⟩, h1, hc⟩ := bind_eq_ok hc
    obtain ⟨m, h2, hc⟩ := bind_eq_ok hc; cases hc
    have hp : owner p = k := hu p (.head _)
    obtain ⟨o', hq⟩ := o.newBlock h1 (k := k) (fun d hd => by
      cases hd
      exact ⟨fun q hq => hu q (.tail _ hq), ht⟩) hk
    obtain ⟨a, ha, rfl⟩ := modAt_ok h2
    have := o'.values _ _ ha
    exact { o' with values := upd_at o'.values ⟨this.1, (by
      rw [hp]
      intro r hr
      cases hr
      exact hq)⟩ }
  | setTag p tag =>
    obtain ⟨m, h1, hc⟩ := bind_eq_ok hc; cases hc
    exact { o with fields := (modAt_at (P := fun p (f : FieldSpec) => ∀ q ∈ f.type.uses, owner q = owner p) h1 o.fields
      fun _ _ h => h) }
  | methodSig p c =>
    obtain ⟨m, h1, hc⟩ := bind_eq_ok hc; cases hc
    exact { o with }
  | funcSig p c =>
    obtain ⟨m, h1, hc⟩ := bind_eq_ok hc; cases hc
    exact { o with funcs := (modAt_at (P := fun p (f : FuncSpec) => ∀ x ∈ f.code, owner x.ptr = owner p) h1 o.funcs
      fun _ _ h => h) }
  | funcCode p c =>
    obtain ⟨f, h1, hc⟩ := bind_eq_ok hc
    obtain ⟨⟨cb, g⟩, h2, hc⟩ := bind_eq_ok hc
    cases hc
    have hp : owner p = k := hu p (.head _)
    obtain ⟨o', -, hx⟩ := o.code h2 (fun q hq => hu q (.tail _ hq)) ht (by
      rw [← hp]; exact o.funcs _ _ (deref_eq_ok h1)) hk
    exact { o' with funcs := upd_at o'.funcs (by rw [hp]; exact hx) }
  | blockCode p c =>
    obtain ⟨f, h1, hc⟩ := bind_eq_ok hc
    obtain ⟨⟨cb, g⟩, h2, hc⟩ := bind_eq_ok hc
    cases hc
    have hp : owner p = k := hu p (.head _)
    obtain ⟨o', -, hx⟩ := o.code h2 (fun q hq => hu q (.tail _ hq)) ht (by
      rw [← hp]; exact o.blocks _ _ (deref_eq_ok h1)) hk
    exact { o' with blocks := upd_at o'.blocks (by rw [hp]; exact hx) }
  | fileField p f s =>
    obtain ⟨m, h1, hc⟩ := bind_eq_ok hc; cases hc
    exact { o with files := (modAt_at (P := fun p (f : GoFile) => ∀ e ∈ f.elements, owner e.ptr = owner p) h1 o.files
      (by intro _ a h; cases f <;> exact h)) }
  | addElement f e => exact (o.addElement hc ((hu _ (.tail _ (.head _))).trans (hu _ (.head _)).symm)).1
  | addValue f kind s =>
    have hf : owner f = k := hu _ (.head _)
    have hs : owner s = k := hu _ (.tail _ (.head _))
    have hn : h'.next = h.next + 1 := by
      obtain ⟨g, h1, he⟩ := bind_eq_ok hc
      obtain ⟨file, h2, he⟩ := bind_eq_ok he
      cases he
      obtain ⟨d, h3, h4⟩ := bind_eq_ok h1
      obtain ⟨m, h5, h4⟩ := bind_eq_ok h4
      cases h4
      rfl
    have hp : owner h.next = k := hk _ (Nat.le_refl _) (by rw [hn]; exact Nat.lt_succ_self _)
    have o' : Owned owner U { h with valueDecls := upd h.valueDecls h.next { kind, specs := [s] }, next := h.next + 1 } :=
      { o with valueDecls := upd_at o.valueDecls (by
          rw [hp]
          intro q hq
          rw [List.mem_singleton.1 hq]
          exact hs) }
    exact (o'.addElement hc (hp.trans hf.symm)).1
  | addType f s =>
    have hf : owner f = k := hu _ (.head _)
    have hs : owner s = k := hu _ (.tail _ (.head _))
    have hn : h'.next = h.next + 1 := by
      obtain ⟨g, h1, he⟩ := bind_eq_ok hc
      obtain ⟨file, h2, he⟩ := bind_eq_ok he
      cases he
      obtain ⟨d, h3, h4⟩ := bind_eq_ok h1
      obtain ⟨m, h5, h4⟩ := bind_eq_ok h4
      cases h4
      rfl
    have hp : owner h.next = k := hk _ (Nat.le_refl _) (by rw [hn]; exact Nat.lt_succ_self _)
    have o' : Owned owner U { h with typeDecls := upd h.typeDecls h.next { types := [s] }, next := h.next + 1 } :=
      { o with typeDecls := upd_at o.typeDecls (by
          rw [hp]
          intro q hq
          rw [List.mem_singleton.1 hq]
          exact hs) }
    exact (o'.addElement hc (hp.trans hf.symm)).1
  | declAddValue d s =>
    obtain ⟨D, h1, hc⟩ := bind_eq_ok hc; cases hc
    have := o.valueDecls _ _ (deref_eq_ok h1)
    exact { o with valueDecls := upd_at o.valueDecls (by
      intro q hq
      rcases List.mem_append.1 hq with hq | hq
      · exact this q hq
      · rw [List.mem_singleton.1 hq]; exact (hu _ (.tail _ (.head _))).trans (hu _ (.head _)).symm) }
  | declAddType d s =>
    obtain ⟨D, h1, hc⟩ := bind_eq_ok hc; cases hc
    have := o.typeDecls _ _ (deref_eq_ok h1)
    exact { o with typeDecls := upd_at o.typeDecls (by
      intro q hq
      rcases List.mem_append.1 hq with hq | hq
      · exact this q hq
      · rw [List.mem_singleton.1 hq]; exact (hu _ (.tail _ (.head _))).trans (hu _ (.head _)).symm) }

theorem Owned.build {cs : List BuildCall} {hf : Heap} (ha : FilesApart owner cs) :
    ∀ {post pre : List BuildCall} {h : Heap}, cs = pre ++ post → Gopoet.build pre {} = .ok h → Gopoet.build post h = .ok hf →
      Owned owner (Unnamed cs) h → Owned owner (Unnamed cs) hf := by
  intro post
  induction post with
  | nil => intro pre h _ _ hp o; cases hp; exact o
  | cons c post ih =>
    intro pre h he hpre hp o
    obtain ⟨g, h1, hp⟩ := bind_eq_ok hp
    have hm : Made cs c h post := ⟨pre, he, hpre⟩
    obtain ⟨k, k1, k2, k3⟩ := ha c h post hm
    refine ih (pre := pre ++ [c]) (by simp [he]) ?_ hp (o.exec h1 k1 k2 (fun hn => ⟨c, h, post, hm, rfl, hn⟩) (k3 g h1))
    rw [build_append, hpre]
    show (c.exec h).bind _ = _
    rw [h1]
    rfl

/-! ### Objects with different owners -/

def Place.ptr : Place → Ptr
  | .value p | .type p | .field p | .embed p | .method p | .func p | .args p | .templ p => p

theorem Owned.body {h : Heap} (o : Owned owner U h) {p : Ptr} {x : Place} (hx : BodyMadeOf h p x) : owner x.ptr = owner p := by
  induction hx with
  | self => rfl
  | field h1 h2 => exact (o.types _ _ h1).1 _ h2
  | spec h1 h2 h3 h4 _ ih =>
    rw [ih, ← (o.types _ _ h1).1 _ h2]
    exact o.fields _ _ h3 _ (by rw [h4]; exact .head _)
  | elem h1 h2 =>
    rename_i e
    have := (o.types _ _ h1).2.1 _ h2
    cases e <;> exact this

theorem Owned.codeIn {h : Heap} (o : Owned owner U h) {e : FileElem} {x : CodeElem} (hx : CodeIn h e x) : owner x.ptr = owner e.ptr := by
  cases hx with
  | init h1 h2 h3 h4 h5 h6 =>
    rw [o.blocks _ _ h5 _ h6, (o.values _ _ h3).2 _ h4]
    exact o.valueDecls _ _ h1 _ h2
  | func h1 h2 => exact o.funcs _ _ h1 _ h2

theorem Owned.madeOf {h : Heap} (o : Owned owner U h) {e : FileElem} {x : Place} (hx : MadeOf h e x) : owner x.ptr = owner e.ptr := by
  cases hx with
  | value h1 h2 => exact o.valueDecls _ _ h1 _ h2
  | valueSpec h1 h2 h3 h4 h5 =>
    rw [o.body h5, (o.values _ _ h3).1 _ (by rw [h4]; exact .head _)]
    exact o.valueDecls _ _ h1 _ h2
  | type h1 h2 h3 =>
    rw [o.body h3]
    exact o.typeDecls _ _ h1 _ h2
  | func => rfl
  | code h1 =>
    rename_i c
    have := o.codeIn h1
    cases c <;> exact this

theorem Owned.shows {h : Heap} (o : Owned owner U h) {e : FileElem} {x : Place} (hx : Shows h e x) : owner x.ptr = owner e.ptr := by
  cases hx with
  | arg h1 h2 h3 h4 =>
    rw [← o.codeIn h1]
    cases h4 with
    | embed => exact (o.args _ _ h2 _ h3).1 _ (.head _)
    | unnamed h5 h6 => exact (o.args _ _ h2 _ h3).2 _ (.head _) ((o.types _ _ h5).2.2 h6)
  | data h1 h2 h3 =>
    rw [← o.codeIn h1]
    cases h3 with
    | unnamed h4 h5 h6 => exact o.templs _ _ h2 _ _ h4 ((o.types _ _ h5).2.2 h6)

/-- Files with different owners have nothing in common. -/
theorem FilesApart.undisturbed {cs : List BuildCall} {h : Heap} (ha : FilesApart owner cs) (hb : Gopoet.build cs {} = .ok h) {p q : Ptr}
    (hpq : owner p ≠ owner q) : Undisturbed h p q := by
  have o := Owned.build ha (pre := []) rfl rfl hb .empty
  rintro x ⟨f, hf, e, he, hm⟩
  have h1 : owner x.ptr = owner p := (o.madeOf hm).trans (o.files _ _ hf e he)
  constructor
  · rintro ⟨f', hf', e', he', hm'⟩
    exact hpq (h1.symm.trans ((o.madeOf hm').trans (o.files _ _ hf' e' he')))
  · rintro ⟨f', hf', e', he', hm'⟩
    exact hpq (h1.symm.trans ((o.shows hm').trans (o.files _ _ hf' e' he')))

end Gopoet
