import Verif.Spec.FileSyntax
import Verif.Proof.DeclLemmas
import Verif.Proof.HeapLemmas
import Verif.Proof.ParseExact
import Verif.Props.Decls
/-! Properties C39, C40, C41 and C45: type specs, fields, declarations and receivers. -/

namespace Gopoet

/-! ## C39 -/

/-- `h'` has what `h` has; parents of fields, embeds and methods may differ. -/
structure Heap.Le (h h' : Heap) : Prop where
  types : ∀ {p t}, h.types p = some t → h'.types p = some t
  files : h'.files = h.files
  fields : ∀ {p f}, h.fields p = some f → ∃ par, h'.fields p = some { f with parent := par }
  embeds : ∀ {p e}, h.embeds p = some e → ∃ par, h'.embeds p = some { e with parent := par }
  methods : ∀ {p m}, h.methods p = some m → ∃ par, h'.methods p = some { m with parent := par }

theorem Heap.le_next (h : Heap) (n : Ptr) : Heap.Le { h with next := n } h :=
  ⟨fun hp => hp, rfl, fun hp => ⟨_, hp⟩, fun hp => ⟨_, hp⟩, fun hp => ⟨_, hp⟩⟩

theorem Heap.Le.toSymbol {h h' : Heap} (hl : h.Le h') (t : TypeSpec) : t.toSymbol h' = t.toSymbol h := by
  simp only [TypeSpec.toSymbol, packageAt, deref, hl.files]

theorem TypeRef.IsType.mono {h h' : Heap} (hl : h.Le h') {r : TypeRef} {t : TypeName}
    (hi : r.IsType h t) : r.IsType h' t := by
  cases hi with
  | nil => exact .nil
  | name => exact .name
  | named h1 h2 h3 => exact .named (hl.types h1) h2 (by rw [hl.toSymbol]; exact h3)
  | unnamed h1 h2 => exact .unnamed (hl.types h1) h2

theorem FieldIs.mono {h h' : Heap} (hl : h.Le h') {p : Ptr} {f : FieldType} (hi : FieldIs h p f) :
    FieldIs h' p f := by
  obtain ⟨F, h1, h2, h3, h4⟩ := hi
  obtain ⟨par, h5⟩ := hl.fields h1
  exact ⟨_, h5, h2, h3, h4.mono hl⟩

theorem EmbedIs.mono {h h' : Heap} (hl : h.Le h') {e : IfaceElem} {s : Symbol} (hi : EmbedIs h e s) :
    EmbedIs h' e s := by
  obtain ⟨p, E, rfl, h2, h3⟩ := hi
  obtain ⟨par, h5⟩ := hl.embeds h2
  exact ⟨p, _, rfl, h5, h3⟩

theorem MethodIs.mono {h h' : Heap} (hl : h.Le h') {e : IfaceElem} {m : MethodType}
    (hi : MethodIs h e m) : MethodIs h' e m := by
  obtain ⟨p, M, rfl, h2, h3⟩ := hi
  obtain ⟨par, h5⟩ := hl.methods h2
  exact ⟨p, _, rfl, h5, h3⟩

theorem BodyLists.mono {h h' : Heap} (hl : h.Le h') {ts : TypeSpec} {t : TypeName}
    (hb : BodyLists h ts t) : BodyLists h' ts t := by
  cases hb with
  | struct h1 h2 => exact .struct (h1.imp fun _ _ h => h.mono hl) h2
  | iface h1 h2 h3 => exact .iface h1 (h2.imp fun _ _ h => h.mono hl) (h3.imp fun _ _ h => h.mono hl)
  | other h1 h2 h3 => exact .other h1 h2 h3

theorem ElemOf.mono {h h' : Heap} (hl : h.Le h') {e : IfaceElem} {g : GoElem SynName}
    (he : ElemOf h e g) : ElemOf h' e g := by
  cases he with
  | @embed p E h1 h2 =>
    obtain ⟨par, h5⟩ := hl.embeds h1
    exact ElemOf.embed (e := { E with parent := par }) h5 h2
  | @method p M h1 h2 h3 h4 h5 =>
    obtain ⟨par, h6⟩ := hl.methods h1
    exact ElemOf.method (m := { M with parent := par }) h6 h2 h3 h4 h5

theorem ElemsOf.mono {h h' : Heap} (hl : h.Le h') : ∀ {es : List IfaceElem} {l : List (GoElem SynName)},
    ElemsOf h es l → ElemsOf h' es l
  | _, _, .nil => .nil
  | _, _, .cons h1 h2 => .cons (h1.mono hl) (ElemsOf.mono hl h2)

mutual
theorem BodyOf.mono {h h' : Heap} (hl : h.Le h') : ∀ {ts : TypeSpec} {t : SynType}, BodyOf h ts t →
    BodyOf h' ts t
  | _, _, .struct h1 h2 => .struct h1 (FieldsOf.mono hl h2)
  | _, _, .iface h1 h2 => .iface h1 (h2.mono hl)
  | _, _, .other h1 h2 => .other h1 h2
theorem FieldsOf.mono {h h' : Heap} (hl : h.Le h') : ∀ {ps : List Ptr} {l : List (GoField SynName)},
    FieldsOf h ps l → FieldsOf h' ps l
  | _, _, .nil => .nil
  | _, _, .cons h1 h2 h3 => by
    obtain ⟨par, h4⟩ := hl.fields h1
    exact .cons h4 (FieldOf.mono hl par h2) (FieldsOf.mono hl h3)
theorem FieldOf.mono {h h' : Heap} (hl : h.Le h') (par : Option Ptr) : ∀ {f : FieldSpec}
    {g : GoField SynName}, FieldOf h f g → FieldOf h' { f with parent := par } g
  | f, _, .line h1 h2 h3 h4 => FieldOf.line (f := { f with parent := par }) h1 h2 h3 h4
  | f, _, .block h1 h2 h3 h4 h5 h6 h7 => FieldOf.block (f := { f with parent := par }) h1 h2 h3 h4 h5 h6 h7
  | f, _, .named h1 h2 h3 h4 h5 h6 => FieldOf.named (f := { f with parent := par }) h1 (hl.types h2) h3
      (by rw [hl.toSymbol]; exact h4) h5 h6
  | f, _, .unnamed h1 h2 h3 h4 h5 h6 => FieldOf.unnamed (f := { f with parent := par }) h1 (hl.types h2) h3
      (BodyOf.mono hl h4) h5 h6
end

/-! ### Allocation -/

/-- How `NewTypeSpec` stores the type of a field. -/
def fieldRef : TypeName → TypeRef
  | .nil => .nil
  | t => .name t

theorem fieldRef_isType (h : Heap) (t : TypeName) : (fieldRef t).IsType h t := by
  cases t <;> first | exact .nil | exact .name

theorem fieldRef_name {t : TypeName} (h : t.valid = true) : fieldRef t = .name t := by
  cases t <;> first | rfl | simp [TypeName.valid] at h

theorem allocFields_spec : ∀ (fs : List FieldType) (h : Heap) (q : Ptr),
    (∃ fields next, (allocFields h q fs).2 = { h with fields, next } ∧ h.next ≤ next ∧
      (∀ p, p < h.next → fields p = h.fields p)) ∧
    List.Forall₂ (fun p (f : FieldType) => h.next ≤ p ∧ (allocFields h q fs).2.fields p =
      some { name := f.name, type := fieldRef f.type, tag := f.tag, parent := some q })
      (allocFields h q fs).1 fs
  | [], h, q => ⟨⟨_, _, rfl, Nat.le_refl _, fun _ _ => rfl⟩, .nil⟩
  | ⟨n, t, tag⟩ :: fs, h, q => by
    obtain ⟨⟨fields, next, h1, h2, h3⟩, h4⟩ := allocFields_spec fs { h with
      fields := upd h.fields h.next { name := n, type := fieldRef t, tag, parent := some q }
      next := h.next + 1 } q
    have e : allocFields h q (⟨n, t, tag⟩ :: fs) = (h.next :: (allocFields { h with
      fields := upd h.fields h.next { name := n, type := fieldRef t, tag, parent := some q }
      next := h.next + 1 } q fs).1, (allocFields { h with
      fields := upd h.fields h.next { name := n, type := fieldRef t, tag, parent := some q }
      next := h.next + 1 } q fs).2) := by
      cases t <;> rfl
    rw [e]
    simp only at h1 h2 h3 h4 ⊢
    refine ⟨⟨fields, next, by rw [h1], Nat.le_of_succ_le h2, ?_⟩, .cons ⟨Nat.le_refl _, ?_⟩ ?_⟩
    · intro p hp
      rw [h3 p (Nat.lt_succ_of_lt hp), upd, if_neg (Nat.ne_of_lt hp)]
    · rw [h1]; simp only; rw [h3 _ (Nat.lt_succ_self _)]; simp [upd]
    · exact h4.imp fun p f hp => ⟨Nat.le_of_succ_le hp.1, hp.2⟩

theorem allocEmbeds_spec : ∀ (es : List Symbol) (h : Heap) (q : Ptr),
    (∃ embeds next, (allocEmbeds h q es).2 = { h with embeds, next } ∧ h.next ≤ next ∧
      (∀ p, p < h.next → embeds p = h.embeds p)) ∧
    List.Forall₂ (fun e (s : Symbol) => ∃ p, h.next ≤ p ∧ e = .embed p ∧
      (allocEmbeds h q es).2.embeds p = some { type := s, parent := some q })
      (allocEmbeds h q es).1 es
  | [], h, q => ⟨⟨_, _, rfl, Nat.le_refl _, fun _ _ => rfl⟩, .nil⟩
  | s :: es, h, q => by
    obtain ⟨⟨embeds, next, h1, h2, h3⟩, h4⟩ := allocEmbeds_spec es { h with
      embeds := upd h.embeds h.next { type := s, parent := some q }
      next := h.next + 1 } q
    simp only at h1 h2 h3 h4
    simp only [allocEmbeds]
    refine ⟨⟨embeds, next, by rw [h1], Nat.le_of_succ_le h2, ?_⟩, .cons ⟨_, Nat.le_refl _, rfl, ?_⟩ ?_⟩
    · intro p hp
      rw [h3 p (Nat.lt_succ_of_lt hp), upd, if_neg (Nat.ne_of_lt hp)]
    · rw [h1]; simp only; rw [h3 _ (Nat.lt_succ_self _)]; simp [upd]
    · exact h4.imp fun e s hp => by
        obtain ⟨p, h5, h6⟩ := hp
        exact ⟨p, Nat.le_of_succ_le h5, h6⟩

theorem allocMethods_spec : ∀ (ms : List MethodType) (h : Heap) (q : Ptr),
    (∃ methods next, (allocMethods h q ms).2 = { h with methods, next } ∧ h.next ≤ next ∧
      (∀ p, p < h.next → methods p = h.methods p)) ∧
    List.Forall₂ (fun e (m : MethodType) => ∃ p, h.next ≤ p ∧ e = .method p ∧
      (allocMethods h q ms).2.methods p =
        some { name := m.name, signature := m.signature, parent := some q })
      (allocMethods h q ms).1 ms
  | [], h, q => ⟨⟨_, _, rfl, Nat.le_refl _, fun _ _ => rfl⟩, .nil⟩
  | m :: ms, h, q => by
    obtain ⟨⟨methods, next, h1, h2, h3⟩, h4⟩ := allocMethods_spec ms { h with
      methods := upd h.methods h.next { name := m.name, signature := m.signature, parent := some q }
      next := h.next + 1 } q
    simp only at h1 h2 h3 h4
    simp only [allocMethods]
    refine ⟨⟨methods, next, by rw [h1], Nat.le_of_succ_le h2, ?_⟩, .cons ⟨_, Nat.le_refl _, rfl, ?_⟩ ?_⟩
    · intro p hp
      rw [h3 p (Nat.lt_succ_of_lt hp), upd, if_neg (Nat.ne_of_lt hp)]
    · rw [h1]; simp only; rw [h3 _ (Nat.lt_succ_self _)]; simp [upd]
    · exact h4.imp fun e s hp => by
        obtain ⟨p, h5, h6⟩ := hp
        exact ⟨p, Nat.le_of_succ_le h5, h6⟩

theorem filter_embeds {P : IfaceElem → Symbol → Prop} {l es} (hP : ∀ e s, P e s → e.isEmbed = true)
    (h : List.Forall₂ P l es) : l.filter IfaceElem.isEmbed = l ∧ l.filter (fun e => !e.isEmbed) = [] := by
  induction h with
  | nil => exact ⟨rfl, rfl⟩
  | cons h _ ih => simp [hP _ _ h, ih.1, ih.2]

theorem filter_methods {P : IfaceElem → MethodType → Prop} {l ms} (hP : ∀ e s, P e s → e.isEmbed = false)
    (h : List.Forall₂ P l ms) : l.filter IfaceElem.isEmbed = [] ∧ l.filter (fun e => !e.isEmbed) = l := by
  induction h with
  | nil => exact ⟨rfl, rfl⟩
  | cons h _ ih => simp [hP _ _ h, ih.1, ih.2]

/-- C39: `NewTypeSpec` of a type gives a spec with that name and underlying type, whose body lists the
fields, or embeds and methods, of the type; embeds come before methods. -/
theorem C39_newTypeSpec {h h' : Heap} {n : GoString} {t : TypeName} {p : Ptr}
    (hn : newTypeSpec h n (.name t) = .ok (p, h')) :
    ∃ ts, h'.types p = some ts ∧ ts.name = n ∧ ts.isAlias = false ∧ ts.underlying = t ∧
      BodyLists h' ts t ∧ ts.interfaceBody = ts.interfaceBody.filter IfaceElem.isEmbed
        ++ ts.interfaceBody.filter (fun e => !e.isEmbed) := by
  have plain : ∀ u : TypeName, u.isBlock = false →
      Outcome.ok (h.allocType { name := n, underlying := u }) = .ok (p, h') →
      ∃ ts, h'.types p = some ts ∧ ts.name = n ∧ ts.isAlias = false ∧ ts.underlying = u ∧
      BodyLists h' ts u ∧ ts.interfaceBody = ts.interfaceBody.filter IfaceElem.isEmbed
        ++ ts.interfaceBody.filter (fun e => !e.isEmbed) := by
    intro u hu he
    cases he
    exact ⟨_, upd_same .., rfl, rfl, rfl, .other hu rfl rfl, rfl⟩
  cases t with
  | nil => simp [newTypeSpec] at hn
  | struct fs =>
    obtain ⟨⟨fields, next, h1, h2, h3⟩, h4⟩ := allocFields_spec fs { h with next := h.next + 1 } h.next
    cases hn
    refine ⟨_, upd_same .., rfl, rfl, rfl, .struct ?_ rfl, rfl⟩
    exact h4.imp fun p f hp => ⟨_, hp.2, rfl, rfl, fieldRef_isType _ _⟩
  | interface ms es =>
    obtain ⟨⟨embeds, next, h1, h2, h3⟩, h4⟩ := allocEmbeds_spec es { h with next := h.next + 1 } h.next
    obtain ⟨⟨methods, next', h5, h6, h7⟩, h8⟩ := allocMethods_spec ms
      (allocEmbeds { h with next := h.next + 1 } h.next es).2 h.next
    cases hn
    have he := filter_embeds (fun e s he => by obtain ⟨p, _, rfl, _⟩ := he; rfl) h4
    have hm := filter_methods (fun e s he => by obtain ⟨p, _, rfl, _⟩ := he; rfl) h8
    refine ⟨_, upd_same .., rfl, rfl, rfl, .iface rfl ?_ ?_, ?_⟩
    · simp only [List.filter_append, he.1, hm.1, List.append_nil]
      refine h4.imp ?_
      rintro e s ⟨p, _, rfl, hp⟩
      exact ⟨p, _, rfl, by simp only [h5]; exact hp, rfl⟩
    · simp only [List.filter_append, he.2, hm.2, List.nil_append]
      refine h8.imp ?_
      rintro e m ⟨p, _, rfl, hp⟩
      exact ⟨p, _, rfl, hp, rfl, rfl⟩
    · simp only [List.filter_append, he.1, he.2, hm.1, hm.2, List.append_nil, List.nil_append]
  | _ => exact plain _ rfl hn

/-- C39: every type has a spec; only nil is refused. -/
theorem C39_newTypeSpec_total (h : Heap) (n : GoString) (t : TypeName) :
    (∃ p h', newTypeSpec h n (.name t) = .ok (p, h')) ↔ t.isNil = false := by
  cases t <;> simp [newTypeSpec, TypeName.isNil, Heap.allocType]

theorem onLine_of_multiline {t : TypeName} (hb : t.isBlock = false) (hv : t.valid = true)
    (hw : t.wellNamed = true) (hm : t.multiline = true) : t.onLine := by
  refine ⟨hv, hw, ?_⟩
  cases t <;> first | exact hm | simp [TypeName.isBlock] at hb

theorem fieldOf_fieldType {h : Heap} {n tag : GoString} {t : TypeName} {par : Option Ptr}
    (hv : t.valid = true) (hn : n = [] ∧ t.embeddable = true ∨ isIdent n = true)
    (hw : t.wellNamed = true) (hb : t.isBlock = false ∨ tag = []) (hm : t.multiline = true) :
    FieldOf h { name := n, type := .name t, tag, parent := par }
      (.mk (optName n) t.syntax (optName tag)) := by
  cases hbt : t.isBlock with
  | false =>
    exact FieldOf.line (f := { name := n, type := .name t, tag, parent := par }) rfl hbt
      (onLine_of_multiline hbt hv hw hm) hn
  | true =>
    have ht : tag = [] := hb.resolve_left (by simp [hbt])
    have hi : isIdent n = true := by
      rcases hn with ⟨_, he⟩ | hi
      · cases t <;> simp [TypeName.isBlock, TypeName.embeddable] at hbt he
      · exact hi
    have h0 : n ≠ [] := by rintro rfl; simp [isIdent] at hi
    subst ht
    have := FieldOf.block (h := h) (f := { name := n, type := .name t, tag := [], parent := par }) rfl hbt hv
      hw hm hi rfl
    simpa [optName, h0] using this

theorem fieldsOf_alloc {h : Heap} {par : Option Ptr} {ps : List Ptr} {fs : List FieldType}
    (hp : List.Forall₂ (fun p (f : FieldType) => h.fields p =
      some { name := f.name, type := fieldRef f.type, tag := f.tag, parent := par }) ps fs)
    (hv : validFields fs = true) (hw : wellNamedFields fs = true) (hm : multilineFields fs = true) :
    FieldsOf h ps (syntaxFields fs) := by
  induction hp with
  | nil => exact .nil
  | @cons p f ps fs h1 _ ih =>
    obtain ⟨n, t, tag⟩ := f
    simp only [validFields, wellNamedFields, multilineFields, Bool.and_eq_true, Bool.or_eq_true,
      beq_iff_eq, Bool.not_eq_true'] at hv hw hm
    rw [fieldRef_name hv.1] at h1
    exact .cons h1 (fieldOf_fieldType hv.1 hw.1.1 hw.1.2 hm.1.1 hm.1.2) (ih hv.2 hw.2 hm.2)

theorem elemsOf_append {h : Heap} {es es' : List IfaceElem} {l l' : List (GoElem SynName)}
    (h1 : ElemsOf h es l) (h2 : ElemsOf h es' l') : ElemsOf h (es ++ es') (l ++ l') := by
  induction h1 with
  | nil => exact h2
  | cons h _ ih => exact .cons h ih

theorem elemsOf_embeds {h : Heap} {ps : List IfaceElem} {es : List Symbol}
    (hp : List.Forall₂ (EmbedIs h) ps es) (hw : es.all Symbol.wellNamed = true) :
    ElemsOf h ps (es.map fun s => .embed s.syntaxName) := by
  induction hp with
  | nil => exact .nil
  | cons h1 _ ih =>
    simp only [List.all_cons, Bool.and_eq_true] at hw
    obtain ⟨p, E, rfl, h2, rfl⟩ := h1
    exact .cons (.embed h2 hw.1) (ih hw.2)

theorem elemsOf_methods {h : Heap} {ps : List IfaceElem} {ms : List MethodType}
    (hp : List.Forall₂ (MethodIs h) ps ms) (hv : validMethods ms = true)
    (hw : wellNamedMethods ms = true) (hu : unproblematicMethods ms = true) :
    ElemsOf h ps (syntaxMethods ms) := by
  induction hp with
  | nil => exact .nil
  | @cons e m ps ms h1 _ ih =>
    obtain ⟨n, s⟩ := m
    simp only [validMethods, wellNamedMethods, unproblematicMethods, Bool.and_eq_true] at hv hw hu
    obtain ⟨p, M, rfl, h2, rfl, rfl⟩ := h1
    exact .cons (.method h2 hw.1.1 hv.1 hw.1.2 hu.1) (ih hv.2 hw.2 hu.2)

/-- `d` renders and the text declares the types, in a group if there are several or if the
declaration has a comment. -/
def Renders (env : Env) (h : Heap) (d : TypeDecl) (ds : List DeclaredType) : Prop :=
  ∃ n s, (∀ fuel, n ≤ fuel → d.text env h fuel = .ok s) ∧
    ((d.types.length > 1 ∨ d.comment ≠ []) → parseGoTypeDecl s = some (.group ds)) ∧
    (¬(d.types.length > 1 ∨ d.comment ≠ []) → ∃ t, ds = [t] ∧ parseGoTypeDecl s = some (.single t))

/-- The declaration of a spec alone renders as `type Name T` or `type Name = T`. -/
def RendersAs (env : Env) (h : Heap) (p : Ptr) (d : DeclaredType) : Prop :=
  ∃ n s, (∀ fuel, n ≤ fuel → TypeDecl.text env h fuel { types := [p] } = .ok s) ∧
    parseGoTypeDecl s = some (.single d)

theorem DeclaresType.renders {env : Env} {h : Heap} {p : Ptr} {d : DeclaredType}
    (hd : DeclaresType h p d) : RendersAs env h p d := by
  obtain ⟨n, s, h1, _, h3⟩ := decl_text (env := env) (d := { types := [p] }) (ds := [d]) (by simp)
    (.cons hd .nil)
  obtain ⟨t, ht, h4⟩ := h3 (by simp)
  cases ht
  exact ⟨n, s, h1, h4⟩

theorem declares_newTypeSpec {h h' : Heap} {n : GoString} {t : TypeName} {p : Ptr}
    (hn : newTypeSpec h n (.name t) = .ok (p, h')) (hv : t.valid = true) (hw : t.wellNamed = true)
    (hm : t.multiline = true) (hi : isIdent n = true) : DeclaresType h' p ⟨n, false, t.syntax⟩ := by
  have plain : ∀ u : TypeName, u.isBlock = false → u.onLine →
      Outcome.ok (h.allocType { name := n, underlying := u }) = .ok (p, h') →
      DeclaresType h' p ⟨n, false, u.syntax⟩ := by
    intro u hu ho he
    cases he
    exact ⟨_, upd_same .., hi, rfl, rfl, BodyOf.other (ts := { name := n, underlying := u }) hu ho⟩
  cases t with
  | nil => simp [TypeName.valid] at hv
  | struct fs =>
    obtain ⟨_, h4⟩ := allocFields_spec fs { h with next := h.next + 1 } h.next
    cases hn
    refine ⟨_, upd_same .., hi, rfl, rfl, .struct rfl ?_⟩
    exact fieldsOf_alloc (h4.imp fun p f hp => hp.2) hv hw hm
  | interface ms es =>
    obtain ⟨ts, h1, h2, h3, h4, h5, h6⟩ := C39_newTypeSpec hn
    simp only [TypeName.wellNamed, Bool.and_eq_true] at hw
    refine ⟨ts, h1, by rw [h2]; exact hi, h2.symm, h3.symm, .iface h4 ?_⟩
    cases h5 with
    | iface h7 h8 h9 =>
      rw [h6]
      exact elemsOf_append (elemsOf_embeds h8 hw.2) (elemsOf_methods h9 hv hw.1 hm)
    | other h7 => simp [TypeName.isBlock] at h7
  | _ => exact plain _ rfl ⟨hv, hw, hm⟩ hn

/-- C39: the declaration of the spec renders as Go source that declares the name to be the type.
Missing for the full statement: types with a tag on a field with a struct or interface type (see
`C40_full_fails`), and the two forms that rendering gets wrong on a line (`TypeName.unproblematic`);
interfaces with embeds and methods are fine here. -/
theorem C39_newTypeSpec_renders_partial (env : Env) {h h' : Heap} {n : GoString} {t : TypeName} {p : Ptr}
    (hn : newTypeSpec h n (.name t) = .ok (p, h')) (hv : t.valid = true) (hw : t.wellNamed = true)
    (hm : t.multiline = true) (hi : isIdent n = true) : RendersAs env h' p ⟨n, false, t.syntax⟩ :=
  (declares_newTypeSpec hn hv hw hm hi).renders

/-- C39: a spec made from an unnamed spec has the same underlying type and the same body. -/
theorem C39_from_unnamed {h h' : Heap} {n : GoString} {q p : Ptr} {t : TypeSpec}
    (hf : h.types h.next = none) (hq : h.types q = some t) (ht : t.name = [])
    (hn : newTypeSpec h n (.spec q) = .ok (p, h')) :
    ∃ ts, h'.types p = some ts ∧ ts.name = n ∧ ts.isAlias = false ∧ ts.underlying = t.underlying ∧
      (BodyLists h t t.underlying → BodyLists h' ts ts.underlying) ∧
      ∀ syn, BodyOf h t syn → BodyOf h' ts syn := by
  have e : newTypeSpec h n (.spec q) = .ok (h.allocType
      { name := n, underlying := t.underlying, structBody := t.structBody, interfaceBody := t.interfaceBody }) := by
    simp [newTypeSpec, deref, hq, TypeSpec.toTypeName, ht, bind, Outcome.bind, pure]
  rw [e] at hn
  cases hn
  have hl : h.Le { h with types := upd h.types h.next { name := n, underlying := t.underlying, structBody := t.structBody, interfaceBody := t.interfaceBody }, next := h.next + 1 } :=
    { types := by
        intro p t hp
        exact (upd_ne _ _ (by rintro rfl; rw [hf] at hp; simp at hp)).trans hp
      files := rfl
      fields := fun hp => ⟨_, hp⟩
      embeds := fun hp => ⟨_, hp⟩
      methods := fun hp => ⟨_, hp⟩ }
  refine ⟨_, upd_same .., rfl, rfl, rfl, fun hb => ?_, fun syn hb => ?_⟩
  · have hb := hb.mono hl
    simp only
    generalize t.underlying = u at hb ⊢
    cases hb with
    | struct h1 h2 => exact .struct h1 h2
    | iface h1 h2 h3 => exact .iface h1 h2 h3
    | other h1 h2 h3 => exact .other h1 h2 h3
  · cases hb.mono hl with
    | struct h1 h2 => exact .struct h1 h2
    | iface h1 h2 => exact .iface h1 h2
    | other h1 h2 =>
      exact BodyOf.other (ts := { name := n, underlying := t.underlying, structBody := t.structBody, interfaceBody := t.interfaceBody }) h1 h2

/-- C39: a spec made from a named spec is a type whose underlying type is a reference to that. -/
theorem C39_from_named {h h' : Heap} {n : GoString} {q p : Ptr} {t : TypeSpec}
    (hq : h.types q = some t) (ht : t.name ≠ [])
    (hn : newTypeSpec h n (.spec q) = .ok (p, h')) :
    ∃ ts s, h'.types p = some ts ∧ ts.name = n ∧ ts.isAlias = false ∧ t.toSymbol h = .ok s ∧
      ts.underlying = .named s ∧ BodyLists h' ts ts.underlying ∧
      (s.wellNamed = true → BodyOf h' ts (.name s.syntaxName)) := by
  unfold newTypeSpec at hn
  simp only [deref, hq] at hn
  obtain ⟨u, hu, hn⟩ := bind_eq_ok (x := t.toTypeName h) hn
  rw [TypeSpec.toTypeName, if_neg ht] at hu
  obtain ⟨s, hs, hu⟩ := bind_eq_ok hu
  cases hu
  rw [if_neg ht] at hn
  cases hn
  exact ⟨_, s, upd_same .., rfl, rfl, hs, rfl, .other rfl rfl rfl, fun hw =>
    BodyOf.other (ts := { name := n, underlying := .named s }) rfl ⟨rfl, hw, rfl⟩⟩

/-- C39: an alias is the spec that `NewTypeSpec` makes, with the mark. -/
theorem C39_alias {h : Heap} {n : GoString} {r : TypeRef} {p : Ptr} {h' : Heap} :
    newTypeAlias h n r = .ok (p, h') ↔ ∃ h0 ts, newTypeSpec h n r = .ok (p, h0) ∧
      h0.types p = some ts ∧ h' = { h0 with types := upd h0.types p { ts with isAlias := true } } := by
  constructor
  · intro ha
    obtain ⟨⟨p0, h0⟩, h1, ha⟩ := bind_eq_ok ha
    obtain ⟨ts, h2, ha⟩ := bind_eq_ok ha
    cases ha
    refine ⟨h0, ts, h1, ?_, rfl⟩
    rw [deref] at h2
    split at h2
    · rename_i hx; cases h2; exact hx
    · simp at h2
  · rintro ⟨h0, ts, h1, h2, rfl⟩
    simp [newTypeAlias, h1, deref, h2, bind, Outcome.bind, pure]

/-- C39: in the text, the mark shows as `= ` between name and body, and only there. -/
theorem C39_alias_text (env : Env) (h : Heap) (fuel : Nat) (ts : TypeSpec) (body : GoString) :
    TypeSpec.text env h fuel { ts with isAlias := false } false = .ok (ts.name ++ b! " " ++ body) ↔
    TypeSpec.text env h fuel { ts with isAlias := true } false = .ok (ts.name ++ b! " = " ++ body) := by
  have e : ∀ b, writeUnderlying env h fuel { ts with isAlias := b } = writeUnderlying env h fuel ts := by
    intro b; cases fuel <;> rfl
  simp only [TypeSpec.text, e]
  cases writeUnderlying env h fuel ts <;> simp [bind, Outcome.bind, pure]

theorem toTypeName_isType {h : Heap} {q : Ptr} {ts : TypeSpec} {t : TypeName}
    (hq : h.types q = some ts) (ht : ts.toTypeName h = .ok t) : (TypeRef.spec q).IsType h t := by
  rw [TypeSpec.toTypeName] at ht
  split at ht
  · rename_i h0; cases ht; exact .unnamed hq h0
  · rename_i h0
    obtain ⟨s, hs, ht⟩ := bind_eq_ok ht
    cases ht
    exact .named hq h0 hs

theorem collectFields_ok : ∀ {ps : List Ptr} {h h' : Heap} {q : Ptr} {fs : List FieldType},
    collectFields q h ps = .ok (fs, h') →
    (∃ fields, h' = { h with fields } ∧
      ∀ {p f}, h.fields p = some f → ∃ par, fields p = some { f with parent := par }) ∧
    List.Forall₂ (FieldIs h) ps fs
  | [], h, h', q, fs, hc => by
    cases hc
    exact ⟨⟨h.fields, rfl, fun hp => ⟨_, hp⟩⟩, .nil⟩
  | p :: ps, h, h', q, fs, hc => by
    obtain ⟨f, hf, hc⟩ := bind_eq_ok hc
    obtain ⟨t, ht, hc⟩ := bind_eq_ok hc
    obtain ⟨⟨gs, h1⟩, hr, hc⟩ := bind_eq_ok hc
    cases hc
    have hf := deref_eq_ok hf
    obtain ⟨⟨fields, h2, h3⟩, h4⟩ := collectFields_ok hr
    subst h2
    have hl : Heap.Le { h with fields := upd h.fields p { f with parent := some q } } h :=
      { types := fun hp => hp
        files := rfl
        fields := by
          intro p' f' hp'
          by_cases he : p' = p
          · subst he
            have := (upd_same h.fields p' { f with parent := some q }).symm.trans hp'
            cases this
            exact ⟨f.parent, hf⟩
          · exact ⟨f'.parent, (upd_ne _ _ he).symm.trans hp'⟩
        embeds := fun hp => ⟨_, hp⟩
        methods := fun hp => ⟨_, hp⟩ }
    refine ⟨⟨fields, rfl, ?_⟩, .cons ⟨f, hf, rfl, rfl, ?_⟩ (h4.imp fun _ _ hi => hi.mono hl)⟩
    · intro p' f' hp'
      by_cases he : p' = p
      · subst he
        rw [hf] at hp'; cases hp'
        obtain ⟨par, h5⟩ := h3 (p := p') (f := { f with parent := some q }) (upd_same ..)
        exact ⟨par, h5⟩
      · exact h3 ((upd_ne _ _ he).trans hp')
    · cases hT : f.type with
      | nil => rw [hT] at ht; cases ht; exact .nil
      | name u => rw [hT] at ht; cases ht; exact .name
      | spec u =>
        rw [hT] at ht
        obtain ⟨ts, h5, h6⟩ := bind_eq_ok ht
        exact toTypeName_isType (deref_eq_ok h5) h6

/-- C39: `NewStructTypeSpec` gives a spec with the given fields as body, whose underlying type is the
struct type with these fields. -/
theorem C39_struct {h h' : Heap} {n : GoString} {fields : List Ptr} {p : Ptr}
    (hf : h.types h.next = none) (hn : newStructTypeSpec h n fields = .ok (p, h')) :
    ∃ ts fs, h'.types p = some ts ∧ ts.name = n ∧ ts.isAlias = false ∧ ts.structBody = fields ∧
      ts.underlying = .struct fs ∧ BodyLists h' ts (.struct fs) ∧ h.Le h' := by
  obtain ⟨⟨fs, h1⟩, hc, hn⟩ := bind_eq_ok hn
  obtain ⟨⟨F, h2, h3⟩, h4⟩ := collectFields_ok hc
  subst h2
  cases hn
  have hl : h.Le { h with fields := F, types := upd h.types h.next { name := n, underlying := structType fs, structBody := fields }, next := h.next + 1 } :=
    { types := by
        intro p t hp
        exact (upd_ne _ _ (by rintro rfl; rw [hf] at hp; simp at hp)).trans hp
      files := rfl
      fields := h3
      embeds := fun hp => ⟨_, hp⟩
      methods := fun hp => ⟨_, hp⟩ }
  have h4 : List.Forall₂ (FieldIs h) fields fs := h4.imp fun _ _ hi => hi.mono (Heap.le_next h _)
  exact ⟨_, fs, upd_same .., rfl, rfl, rfl, rfl, .struct (h4.imp fun _ _ hi => hi.mono hl) rfl, hl⟩

theorem isType_unique {h : Heap} {r : TypeRef} {t u : TypeName} (h1 : r.IsType h t) (h2 : r.IsType h u) :
    t = u := by
  cases h1 with
  | nil => cases h2; rfl
  | name => cases h2; rfl
  | named a b c =>
    cases h2 with
    | named a' b' c' =>
      rw [a] at a'; cases a'; rw [c] at c'; cases c'; rfl
    | unnamed a' b' => rw [a] at a'; cases a'; exact absurd b' b
  | unnamed a b =>
    cases h2 with
    | named a' b' c' => rw [a] at a'; cases a'; exact absurd b b'
    | unnamed a' b' => rw [a] at a'; cases a'; rfl

/-- The field declares a field with its type, name and tag. -/
def FieldOk (h : Heap) (p : Ptr) : Prop :=
  ∃ F t, h.fields p = some F ∧ F.type.IsType h t ∧
    FieldOf h F (.mk (optName F.name) t.syntax (optName F.tag))

theorem fieldsOf_of_ok {h : Heap} {ps : List Ptr} {fs : List FieldType}
    (h1 : List.Forall₂ (FieldIs h) ps fs) (h2 : ∀ p ∈ ps, FieldOk h p) :
    FieldsOf h ps (syntaxFields fs) := by
  induction h1 with
  | nil => exact .nil
  | @cons p f ps fs hp _ ih =>
    obtain ⟨F, t, h3, h4, h5⟩ := h2 p (by simp)
    obtain ⟨F', h6, h7, h8, h9⟩ := hp
    rw [h3] at h6; cases h6
    obtain ⟨n, u, tag⟩ := f
    simp only at h7 h8 h9
    cases isType_unique h4 h9
    subst h7 h8
    exact .cons h3 h5 (ih fun p hp => h2 p (by simp [hp]))

theorem FieldOk.mono {h h' : Heap} (hl : h.Le h') {p : Ptr} (hp : FieldOk h p) : FieldOk h' p := by
  obtain ⟨F, t, h3, h4, h5⟩ := hp
  obtain ⟨par, h6⟩ := hl.fields h3
  exact ⟨_, t, h6, h4.mono hl, FieldOf.mono hl par h5⟩

/-- C39: the declaration of such a spec renders as a declaration of the underlying struct type.
Missing for the full statement: as in `C39_newTypeSpec_renders_partial`; `FieldOk` excludes tags on
fields with a struct or interface type or an unnamed spec as type. -/
theorem C39_struct_renders_partial (env : Env) {h h' : Heap} {n : GoString} {fields : List Ptr} {p : Ptr}
    (hf : h.types h.next = none) (hn : newStructTypeSpec h n fields = .ok (p, h'))
    (hok : ∀ q ∈ fields, FieldOk h q) (hi : isIdent n = true) :
    ∃ ts, h'.types p = some ts ∧ RendersAs env h' p ⟨n, false, ts.underlying.syntax⟩ := by
  obtain ⟨ts, fs, h1, h2, h3, h4, h5, h6, hl⟩ := C39_struct hf hn
  refine ⟨ts, h1, DeclaresType.renders ⟨ts, h1, by rw [h2]; exact hi, h2.symm, h3.symm, ?_⟩⟩
  rw [h5]
  refine .struct h5 ?_
  cases h6 with
  | struct h7 h8 =>
    rw [h4] at h7 ⊢
    exact fieldsOf_of_ok h7 fun q hq => (hok q hq).mono hl
  | other h7 => simp [TypeName.isBlock] at h7

theorem collectElems_ok : ∀ {es : List IfaceElem} {h h' : Heap} {q : Ptr} {ss : List Symbol}
    {ms : List MethodType}, collectElems q h es = .ok (ss, ms, h') →
    (∃ embeds methods, h' = { h with embeds, methods } ∧
      (∀ {p f}, h.embeds p = some f → ∃ par, embeds p = some { f with parent := par }) ∧
      ∀ {p f}, h.methods p = some f → ∃ par, methods p = some { f with parent := par }) ∧
    List.Forall₂ (EmbedIs h) (es.filter IfaceElem.isEmbed) ss ∧
    List.Forall₂ (MethodIs h) (es.filter (fun e => !e.isEmbed)) ms
  | [], h, h', q, ss, ms, hc => by
    cases hc
    exact ⟨⟨h.embeds, h.methods, rfl, fun hp => ⟨_, hp⟩, fun hp => ⟨_, hp⟩⟩, .nil, .nil⟩
  | .embed p :: es, h, h', q, ss, ms, hc => by
    obtain ⟨f, hf, hc⟩ := bind_eq_ok hc
    obtain ⟨⟨ss', ms', h1⟩, hr, hc⟩ := bind_eq_ok hc
    cases hc
    have hf := deref_eq_ok hf
    obtain ⟨⟨embeds, methods, h2, h3, h3'⟩, h4, h4'⟩ := collectElems_ok hr
    subst h2
    have hl : Heap.Le { h with embeds := upd h.embeds p { f with parent := some q } } h :=
      { types := fun hp => hp
        files := rfl
        embeds := by
          intro p' f' hp'
          by_cases he : p' = p
          · subst he
            have := (upd_same h.embeds p' { f with parent := some q }).symm.trans hp'
            cases this
            exact ⟨f.parent, hf⟩
          · exact ⟨f'.parent, (upd_ne _ _ he).symm.trans hp'⟩
        fields := fun hp => ⟨_, hp⟩
        methods := fun hp => ⟨_, hp⟩ }
    refine ⟨⟨embeds, methods, rfl, ?_, h3'⟩, .cons ⟨p, f, rfl, hf, rfl⟩ (h4.imp fun _ _ hi => hi.mono hl),
      h4'.imp fun _ _ hi => hi.mono hl⟩
    intro p' f' hp'
    by_cases he : p' = p
    · subst he
      rw [hf] at hp'; cases hp'
      obtain ⟨par, h5⟩ := h3 (p := p') (f := { f with parent := some q }) (upd_same ..)
      exact ⟨par, h5⟩
    · exact h3 ((upd_ne _ _ he).trans hp')
  | .method p :: es, h, h', q, ss, ms, hc => by
    obtain ⟨f, hf, hc⟩ := bind_eq_ok hc
    obtain ⟨⟨ss', ms', h1⟩, hr, hc⟩ := bind_eq_ok hc
    cases hc
    have hf := deref_eq_ok hf
    obtain ⟨⟨embeds, methods, h2, h3, h3'⟩, h4, h4'⟩ := collectElems_ok hr
    subst h2
    have hl : Heap.Le { h with methods := upd h.methods p { f with parent := some q } } h :=
      { types := fun hp => hp
        files := rfl
        methods := by
          intro p' f' hp'
          by_cases he : p' = p
          · subst he
            have := (upd_same h.methods p' { f with parent := some q }).symm.trans hp'
            cases this
            exact ⟨f.parent, hf⟩
          · exact ⟨f'.parent, (upd_ne _ _ he).symm.trans hp'⟩
        fields := fun hp => ⟨_, hp⟩
        embeds := fun hp => ⟨_, hp⟩ }
    refine ⟨⟨embeds, methods, rfl, h3, ?_⟩, h4.imp fun _ _ hi => hi.mono hl,
      .cons ⟨p, f, rfl, hf, rfl, rfl⟩ (h4'.imp fun _ _ hi => hi.mono hl)⟩
    intro p' f' hp'
    by_cases he : p' = p
    · subst he
      rw [hf] at hp'; cases hp'
      obtain ⟨par, h5⟩ := h3' (p := p') (f := { f with parent := some q }) (upd_same ..)
      exact ⟨par, h5⟩
    · exact h3' ((upd_ne _ _ he).trans hp')

/-- C39: `NewInterfaceTypeSpec` gives a spec with the given elements as body, whose underlying type is
the interface type with these embeds and these methods. -/
theorem C39_interface {h h' : Heap} {n : GoString} {elems : List IfaceElem} {p : Ptr}
    (hf : h.types h.next = none) (hn : newInterfaceTypeSpec h n elems = .ok (p, h')) :
    ∃ ts es ms, h'.types p = some ts ∧ ts.name = n ∧ ts.isAlias = false ∧ ts.interfaceBody = elems ∧
      ts.underlying = .interface ms es ∧ BodyLists h' ts (.interface ms es) ∧ h.Le h' := by
  obtain ⟨⟨es, ms, h1⟩, hc, hn⟩ := bind_eq_ok hn
  obtain ⟨⟨E, M, h2, h3, h3'⟩, h4, h4'⟩ := collectElems_ok hc
  subst h2
  cases hn
  have hl : h.Le { h with embeds := E, methods := M, types := upd h.types h.next { name := n, underlying := interfaceType es ms, interfaceBody := elems }, next := h.next + 1 } :=
    { types := by
        intro p t hp
        exact (upd_ne _ _ (by rintro rfl; rw [hf] at hp; simp at hp)).trans hp
      files := rfl
      fields := fun hp => ⟨_, hp⟩
      embeds := h3
      methods := h3' }
  have h4 : List.Forall₂ (EmbedIs h) (elems.filter IfaceElem.isEmbed) es := h4.imp fun _ _ hi => hi
  have h4' : List.Forall₂ (MethodIs h) (elems.filter fun e => !e.isEmbed) ms := h4'.imp fun _ _ hi => hi
  exact ⟨_, es, ms, upd_same .., rfl, rfl, rfl, rfl, .iface rfl (h4.imp fun _ _ hi => hi.mono hl)
    (h4'.imp fun _ _ hi => hi.mono hl), hl⟩

theorem elemsOf_syntax {h : Heap} {es : List IfaceElem} {l : List (GoElem SynName)}
    (he : ElemsOf h es l) : ∀ {ss : List Symbol} {ms : List MethodType},
    List.Forall₂ (EmbedIs h) (es.filter IfaceElem.isEmbed) ss →
    List.Forall₂ (MethodIs h) (es.filter (fun e => !e.isEmbed)) ms →
    l.filter GoElem.isEmbed = ss.map (fun s => .embed s.syntaxName) ∧
      l.filter (fun e => !e.isEmbed) = syntaxMethods ms := by
  induction he with
  | nil =>
    intro ss ms h1 h2
    cases h1; cases h2
    exact ⟨rfl, rfl⟩
  | cons hx _ ih =>
    intro ss ms h1 h2
    cases hx with
    | @embed p e hp hw =>
      rw [List.filter_cons_of_pos rfl] at h1
      rw [List.filter_cons_of_neg (by simp [IfaceElem.isEmbed])] at h2
      cases h1 with
      | cons h3 h4 =>
        obtain ⟨i1, i2⟩ := ih h4 h2
        obtain ⟨p', E, he, h5, rfl⟩ := h3
        cases he
        rw [hp] at h5; cases h5
        exact ⟨by rw [List.filter_cons_of_pos rfl, i1]; rfl, by
          rw [List.filter_cons_of_neg (by simp [GoElem.isEmbed]), i2]⟩
    | @method p m hp hn hv hw hu =>
      rw [List.filter_cons_of_neg (by simp [IfaceElem.isEmbed])] at h1
      rw [List.filter_cons_of_pos rfl] at h2
      cases h2 with
      | @cons _ mt _ _ h3 h4 =>
        obtain ⟨i1, i2⟩ := ih h1 h4
        obtain ⟨p', M, he, h5, h6, h7⟩ := h3
        cases he
        rw [hp] at h5; cases h5
        obtain ⟨mn, msig⟩ := mt
        simp only at h6 h7
        subst h6 h7
        exact ⟨by rw [List.filter_cons_of_neg (by simp [GoElem.isEmbed]), i1], by
          rw [List.filter_cons_of_pos rfl, i2]; rfl⟩

/-- C39: the declaration of such a spec renders as an interface type with the embeds and the methods
of the underlying type, each in order. Missing for the full statement: methods with a signature that
rendering gets wrong (`Signature.unproblematic`). -/
theorem C39_interface_renders_partial (env : Env) {h h' : Heap} {n : GoString} {elems : List IfaceElem}
    {p : Ptr} (hf : h.types h.next = none) (hn : newInterfaceTypeSpec h n elems = .ok (p, h'))
    (hok : ∀ e ∈ elems, ∃ g, ElemOf h e g) (hi : isIdent n = true) :
    ∃ ts l, h'.types p = some ts ∧ RendersAs env h' p ⟨n, false, .iface l⟩ ∧
      ts.underlying.syntax = .iface (l.filter GoElem.isEmbed ++ l.filter (fun e => !e.isEmbed)) := by
  obtain ⟨ts, es, ms, h1, h2, h3, h4, h5, h6, hl⟩ := C39_interface hf hn
  have : ∃ l, ElemsOf h elems l := by
    clear h4 hn
    induction elems with
    | nil => exact ⟨[], .nil⟩
    | cons e es ih =>
      obtain ⟨l, hl⟩ := ih fun e he => hok e (by simp [he])
      obtain ⟨g, hg⟩ := hok e (by simp)
      exact ⟨g :: l, .cons hg hl⟩
  obtain ⟨l, hel⟩ := this
  have hel := hel.mono hl
  refine ⟨ts, l, h1, DeclaresType.renders ⟨ts, h1, by rw [h2]; exact hi, h2.symm, h3.symm,
    .iface h5 (by rw [h4]; exact hel)⟩, ?_⟩
  cases h6 with
  | iface h7 h8 h9 =>
    rw [h4] at h8 h9
    obtain ⟨i1, i2⟩ := elemsOf_syntax hel h8 h9
    rw [h5, i1, i2]; rfl
  | other h7 => simp [TypeName.isBlock] at h7

/-- `type T struct { A int `x`; B struct { C interface { io.Reader; M() } } }` as a type. -/
def exBody : TypeName := .struct [⟨b! "A", .basic .int, b! "x"⟩, ⟨b! "B", .struct
  [⟨b! "C", .interface [⟨b! "M", ⟨[], [], false⟩⟩] [⟨⟨b! "io", b! "io"⟩, b! "Reader"⟩], []⟩], []⟩]

example : exBody.valid && exBody.wellNamed && exBody.multiline = true := by decide
example : ((newTypeSpec {} (b! "T") (.name exBody)).bind fun r =>
    TypeDecl.text exEnv r.2 5 { types := [r.1] }) =
    .ok (b! "type T  struct {\nA int `x`\nB  struct {\nC  interface {\nio.Reader\nM()\n}\n\n}\n\n}\n") := by
  decide
example : ((newTypeAlias {} (b! "T") (.name (.slice (.basic .int)))).bind fun r =>
    TypeDecl.text exEnv r.2 5 { types := [r.1] }) = .ok (b! "type T =  []int\n") := by decide
/- The elements of an interface keep their order, its type has embeds first. -/
example : ((newInterfaceTypeSpec { methods := fun p => if p = 0 then some { name := b! "M", signature := ⟨[], [], false⟩ } else none
                                   embeds := fun p => if p = 1 then some { type := ⟨⟨[], []⟩, b! "E"⟩ } else none
                                   next := 2 } (b! "T") [.method 0, .embed 1]).bind fun r =>
    TypeDecl.text exEnv r.2 5 { types := [r.1] }) = .ok (b! "type T  interface {\nM()\nE\n}\n") := by
  decide

/-! ## C40 -/

/-- A struct type with the fields that the text describes. -/
def structAround (s : GoString) : GoString := b! "type T  struct {\n" ++ s ++ b! "}\n"

/-- C40, the property: in a struct definition, a field is rendered with its tag, whatever its type. -/
def C40_full : Prop := ∀ (env : Env) (h : Heap) (fuel : Nat) (F : FieldSpec) (t : TypeName),
  F.type = .name t → t.valid = true → t.wellNamed = true → t.unproblematic = true →
  isIdent F.name = true →
  ∃ s, F.text env h (writeUnderlying env h fuel) = .ok s ∧ parseGoTypeDecl (structAround s)
    = some (.single ⟨b! "T", false, .struct [.mk (some F.name) t.syntax (optName F.tag)]⟩)

/-- C40: the tag of a field with a struct type ends up on a line of its own, which is not Go. -/
theorem C40_full_fails : ¬ C40_full := by
  intro h
  obtain ⟨s, h1, h2⟩ := h exEnv {} 1 { name := b! "A", type := .name (.struct []), tag := b! "x" }
    (.struct []) rfl rfl rfl rfl rfl
  have : s = b! "A  struct {\n}\n `x`\n" := by
    have h3 : FieldSpec.text exEnv {} (writeUnderlying exEnv {} 1)
      { name := b! "A", type := .name (.struct []), tag := b! "x" } = .ok (b! "A  struct {\n}\n `x`\n") := by
      decide
    rw [h3] at h1; cases h1; rfl
  subst this
  have h4 : (parseGoTypeDecl (structAround (b! "A  struct {\n}\n `x`\n"))).isNone := by rfl
  rw [h2] at h4
  simp at h4

theorem parse_struct_around {s : GoString} {g : GoField SynName} (hl : Line parseField s [g]) :
    parseGoTypeDecl (structAround s) = some (.single ⟨b! "T", false, .struct [g]⟩) := by
  have h1 := typeText_struct (fields_cons hl fields_nil)
  rw [List.append_nil] at h1
  obtain ⟨ls, h3, h4⟩ := typeSpec_text (n := b! "T") h1 (by decide) false
  refine parse_of_toks (ts := .kw .kType :: .ident (b! "T") :: ls) ?_ ?_
  · have := Toks.before (b := false) (b' := false)
      (s := b! "type ") (ts := [.kw .kType]) (by
        intro rest tl hr
        exact Lex.kw (w := b! "type") (by decide) (delim_cons (by decide)) hr.space) rfl (h3 false)
    simpa [structAround] using this
  · intro f hf
    have := h4 f [] (by simp at hf; omega)
    simp only [List.cons_append]
    rw [parseTypeDecl, this]
    · rfl
    · simp

/-- C40: a field with a type that is written on one line is rendered with its tag. Missing for the full
statement: struct and interface types and unnamed specs (see `C40_tag_apart`), and the types that
rendering gets wrong (`TypeName.unproblematic`). -/
theorem C40_tag_partial (env : Env) (h : Heap) (fuel : Nat) {F : FieldSpec} {t : TypeName}
    (hF : F.type = .name t) (hv : t.valid = true) (hw : t.wellNamed = true)
    (hu : t.unproblematic = true) (hb : t.isBlock = false) (hi : isIdent F.name = true) :
    ∃ s, F.text env h (writeUnderlying env h fuel) = .ok s ∧ parseGoTypeDecl (structAround s)
      = some (.single ⟨b! "T", false, .struct [.mk (some F.name) t.syntax (optName F.tag)]⟩) := by
  have h0 : F.name ≠ [] := by intro e; rw [e] at hi; simp [isIdent] at hi
  obtain ⟨w, hws, _⟩ := render_type env.isPrint hv hw
  obtain ⟨k, hk, hk'⟩ := kind_line hv hb
  have hl := (line_field (n := F.name) (tag := F.tag) ⟨hv, hw, hu⟩ hws (.inr hi)).comment F.comment
  rw [show optName F.name = some F.name by simp [optName, h0]] at hl
  refine ⟨_, ?_, parse_struct_around hl⟩
  rw [FieldSpec.text, hF, fieldTypeText, hk]
  simp only [Outcome.bind, bind, hk', if_false, fprintf_type hws]
  simp [pure]

/-- C40: the same for a field whose type is a named spec. -/
theorem C40_tag_spec (env : Env) (h : Heap) (fuel : Nat) {F : FieldSpec} {q : Ptr} {ts : TypeSpec}
    {s : Symbol} (hF : F.type = .spec q) (hq : h.types q = some ts) (hs : ts.toSymbol h = .ok s)
    (hw : s.wellNamed = true) (hi : isIdent F.name = true) :
    ∃ text, F.text env h (writeUnderlying env h fuel) = .ok text ∧ parseGoTypeDecl (structAround text)
      = some (.single ⟨b! "T", false, .struct [.mk (some F.name) (.name s.syntaxName) (optName F.tag)]⟩) := by
  have h0 : F.name ≠ [] := by intro e; rw [e] at hi; simp [isIdent] at hi
  have hn : ts.name ≠ [] := by
    intro e; rw [TypeSpec.toSymbol, if_pos e] at hs; simp at hs
  have hws : typeNameToBuffer env.isPrint (.named s) = .ok s.string := by
    rw [← symbolText_string]; rfl
  have hl := (line_field (n := F.name) (tag := F.tag) (onLine_named hw) hws (.inr hi)).comment F.comment
  rw [show optName F.name = some F.name by simp [optName, h0]] at hl
  refine ⟨_, ?_, parse_struct_around hl⟩
  rw [FieldSpec.text, hF, fieldTypeText, deref, hq]
  simp only [Outcome.bind, bind, hn, if_false, hs]
  rw [fprintf_str (a := .symbol s) (s := s.string) rfl]
  simp [pure]

theorem underlying_newline {env : Env} {h : Heap} {t : TypeName} {s : GoString}
    (hs : underlyingText env h t = .ok s) : ∃ s', s = s' ++ b! "\n" := by
  cases t <;> (rw [underlyingText.eq_def] at hs; simp only at hs)
  case struct fs =>
    obtain ⟨a, _, hs⟩ := bind_eq_ok hs
    cases hs; exact ⟨b! " struct {\n" ++ a ++ b! "}", by simp⟩
  case interface ms es =>
    obtain ⟨a, _, hs⟩ := bind_eq_ok hs
    obtain ⟨b, _, hs⟩ := bind_eq_ok hs
    cases hs; exact ⟨b! " interface {\n" ++ (a ++ b) ++ b! "}", by simp⟩
  all_goals
    obtain ⟨a, _, hs⟩ := bind_eq_ok hs
    cases hs; exact ⟨b! " " ++ a, by simp⟩

theorem writeUnderlying_newline {env : Env} {h : Heap} {fuel : Nat} {ts : TypeSpec} {s : GoString}
    (hs : writeUnderlying env h fuel ts = .ok s) : ∃ s', s = s' ++ b! "\n" := by
  cases fuel with
  | zero => simp [writeUnderlying] at hs
  | succ fuel =>
    rw [writeUnderlying] at hs
    generalize ts.underlying = u at hs
    cases u <;> simp only at hs
    case nil => simp at hs
    case struct fs =>
      obtain ⟨a, _, hs⟩ := bind_eq_ok hs
      cases hs; exact ⟨b! " struct {\n" ++ a ++ b! "}", by simp⟩
    case interface ms es =>
      obtain ⟨a, _, hs⟩ := bind_eq_ok hs
      cases hs; exact ⟨b! " interface {\n" ++ a ++ b! "}", by simp⟩
    all_goals
      obtain ⟨a, _, hs⟩ := bind_eq_ok hs
      cases hs; exact ⟨b! " " ++ a, by simp⟩

/-- The types of fields that are written by `writeUnderlying`. -/
def TypeRef.isBody (h : Heap) : TypeRef → Prop
  | .nil => False
  | .name t => t.isBlock = true
  | .spec q => ∃ ts, h.types q = some ts ∧ ts.name = []

/-- C40: in all other cases there is a newline between the type and the tag. -/
theorem C40_tag_apart (env : Env) (h : Heap) (fuel : Nat) {F : FieldSpec} {s : GoString}
    (hF : F.type.isBody h) (ht : F.tag ≠ [])
    (hs : F.text env h (writeUnderlying env h fuel) = .ok s) :
    ∃ pre lit, Literal F.tag lit ∧ s = pre ++ b! "\n " ++ lit ++ b! "\n" := by
  obtain ⟨a, ha, hs⟩ := bind_eq_ok hs
  cases hs
  have : ∃ a', a = a' ++ b! "\n" := by
    cases hT : F.type with
    | nil => rw [hT] at hF; exact hF.elim
    | name t =>
      rw [hT] at hF ha
      obtain ⟨k, hk, hk'⟩ := kind_block hF
      rw [fieldTypeText, hk] at ha
      simp only [Outcome.bind, bind, hk', if_true] at ha
      exact underlying_newline ha
    | spec q =>
      rw [hT] at hF ha
      obtain ⟨ts, hq, hn⟩ := hF
      rw [fieldTypeText, deref, hq] at ha
      simp only [Outcome.bind, bind, hn, if_true] at ha
      exact writeUnderlying_newline ha
  obtain ⟨a', rfl⟩ := this
  refine ⟨writeComment F.comment ++ (if F.name ≠ [] then F.name ++ b! " " else []) ++ a',
    tagText env.isPrint F.tag, ?_, ?_⟩
  · intro rest
    rw [tagText]
    split
    · rename_i hc
      have := stringLit_backquote hc rest
      simpa using this
    · exact stringLit_quote _ _ _
  · simp [fieldTagText, ht]

example : FieldSpec.text exEnv {} (writeUnderlying exEnv {} 1)
    { name := b! "A", type := .name (.map (.basic .int) (.basic .string)), tag := b! "json:\"a\"" }
    = .ok (b! "A map[string]int `json:\"a\"`\n") := by decide
/- An unnamed spec, even of a type that fits on a line. -/
example : FieldSpec.text exEnv { types := fun _ => some { name := [], underlying := .basic .int } }
    (writeUnderlying exEnv {} 1) { name := b! "A", type := .spec 0, tag := b! "x" }
    = .ok (b! "A  int\n `x`\n") := by decide
example : (parseGoTypeDecl (structAround (b! "A  int\n `x`\n"))).isNone := by rfl

/-! ## C41 -/

theorem comment_group {α} {text : α → Bool → Outcome GoString} {comment : α → GoString}
    (hc : ∀ a b, text a b = (text a false).bind fun s => .ok ((if b then writeComment (comment a) else []) ++ s))
    {m : Ptr → Option α} : ∀ {ps : List Ptr} {s : GoString},
    concatText (fun p => (deref m p).bind fun a => text a true) ps = .ok s →
    ∃ specs docs, List.Forall₂ (fun p (x : GoString × GoString) =>
        ∃ a, m p = some a ∧ x.1 = comment a ∧ text a false = .ok x.2) ps specs ∧
      List.Forall₂ (fun (s : GoString × GoString) d => CommentBlock s.1 d) specs docs ∧
      s = (List.zipWith (fun d (s : GoString × GoString) => d ++ s.2) docs specs).flatten
  | [], s, h => by cases h; exact ⟨[], [], .nil, .nil, rfl⟩
  | p :: ps, s, h => by
    obtain ⟨x, hx, h⟩ := bind_eq_ok h
    obtain ⟨y, hy, h⟩ := bind_eq_ok h
    cases h
    obtain ⟨specs, docs, h1, h2, rfl⟩ := comment_group hc hy
    obtain ⟨a, ha, hx⟩ := bind_eq_ok hx
    rw [hc] at hx
    obtain ⟨b, hb, hx⟩ := bind_eq_ok hx
    cases hx
    exact ⟨(comment a, b) :: specs, writeComment (comment a) :: docs,
      .cons ⟨a, deref_eq_ok ha, rfl, hb⟩ h1, .cons (commentBlock_writeComment _) h2, by simp⟩

theorem typeSpec_comment (env : Env) (h : Heap) (fuel : Nat) (a : TypeSpec) (b : Bool) :
    a.text env h fuel b = (a.text env h fuel false).bind
      fun s => .ok ((if b then writeComment a.comment else []) ++ s) := by
  simp only [TypeSpec.text]
  cases writeUnderlying env h fuel a <;> simp [bind, Outcome.bind, pure]

theorem valueSpec_comment (env : Env) (h : Heap) (a : ValueSpec) (b : Bool) :
    a.text env h b = (a.text env h false).bind
      fun s => .ok ((if b then writeComment a.comment else []) ++ s) := by
  unfold ValueSpec.text
  cases a.init with
  | none => simp [bind, Outcome.bind, pure]
  | some p =>
    simp only [bind, Outcome.bind, pure]
    cases deref h.blocks p with
    | ok cb => cases hc : codeText env h cb <;> simp [hc]
    | panic => simp
    | hang => simp

/-- C41: a type declaration contains its specs once and in order; it is a group exactly if it has
several specs or a comment. -/
theorem C41_types {env : Env} {h : Heap} {fuel : Nat} {d : TypeDecl} {s : GoString}
    (hs : d.text env h fuel = .ok s) :
    ∃ specs, List.Forall₂ (fun p (x : GoString × GoString) => ∃ t : TypeSpec, h.types p = some t ∧
        x.1 = t.comment ∧ t.text env h fuel false = .ok x.2) d.types specs ∧
      DeclText (b! "type") d.comment specs s := by
  by_cases hg : d.types.length > 1 ∨ d.comment ≠ []
  · rw [TypeDecl.text, if_pos hg] at hs
    obtain ⟨body, hb, hs⟩ := bind_eq_ok hs
    cases hs
    obtain ⟨specs, docs, h1, h2, rfl⟩ := comment_group (typeSpec_comment env h fuel) hb
    refine ⟨specs, h1, ?_⟩
    have := DeclText.group (kw := b! "type") (c := d.comment) (by rw [← h1.length_eq]; exact hg)
      (commentBlock_writeComment _) h2
    simpa using this
  · rw [TypeDecl.text, if_neg hg] at hs
    simp only [not_or, Nat.not_lt, ne_eq, not_not] at hg
    rw [hg.2]
    cases hp : d.types with
    | nil => rw [hp] at hs; simp at hs
    | cons p ps =>
      have : ps = [] := by rw [hp] at hg; simpa using hg.1
      subst this
      rw [hp] at hs
      obtain ⟨t, ht, hs⟩ := bind_eq_ok hs
      obtain ⟨body, hb, hs⟩ := bind_eq_ok hs
      cases hs
      refine ⟨[(t.comment, body)], .cons ⟨t, deref_eq_ok ht, rfl, hb⟩ .nil, ?_⟩
      simpa using DeclText.single (kw := b! "type") (body := body) (commentBlock_writeComment t.comment)

/-- C41: the same for declarations of constants and variables. -/
theorem C41_values {env : Env} {h : Heap} {d : ValueDecl} {s : GoString}
    (hs : d.text env h = .ok s) :
    ∃ specs, List.Forall₂ (fun p (x : GoString × GoString) => ∃ c : ValueSpec, h.values p = some c ∧
        x.1 = c.comment ∧ c.text env h false = .ok x.2) d.specs specs ∧
      DeclText (match d.kind with | .const => b! "const" | .var => b! "var") d.comment specs s := by
  have hk : (match d.kind with | .const => b! "const" | .var => b! "var") = d.kind.keyword := by
    cases d.kind <;> rfl
  rw [hk]
  by_cases hg : d.specs.length > 1 ∨ d.comment ≠ []
  · rw [ValueDecl.text, if_pos hg] at hs
    obtain ⟨body, hb, hs⟩ := bind_eq_ok hs
    cases hs
    obtain ⟨specs, docs, h1, h2, rfl⟩ := comment_group (valueSpec_comment env h) hb
    refine ⟨specs, h1, ?_⟩
    have := DeclText.group (kw := d.kind.keyword) (c := d.comment) (by rw [← h1.length_eq]; exact hg)
      (commentBlock_writeComment _) h2
    simpa using this
  · rw [ValueDecl.text, if_neg hg] at hs
    simp only [not_or, Nat.not_lt, ne_eq, not_not] at hg
    rw [hg.2]
    cases hp : d.specs with
    | nil => rw [hp] at hs; simp at hs
    | cons p ps =>
      have : ps = [] := by rw [hp] at hg; simpa using hg.1
      subst this
      rw [hp] at hs
      obtain ⟨t, ht, hs⟩ := bind_eq_ok hs
      obtain ⟨body, hb, hs⟩ := bind_eq_ok hs
      cases hs
      refine ⟨[(t.comment, body)], .cons ⟨t, deref_eq_ok ht, rfl, hb⟩ .nil, ?_⟩
      simpa using DeclText.single (kw := d.kind.keyword) (body := body) (commentBlock_writeComment t.comment)

/-- C41: the text of one const or var spec: names, type and value, if there are. -/
theorem C41_value_spec {env : Env} {h : Heap} {c : ValueSpec} {s : GoString}
    (hs : c.text env h false = .ok s) :
    ∃ init, (c.init = none ∧ init = [] ∨ ∃ b cb code, c.init = some b ∧ h.blocks b = some cb ∧
        codeText env h cb = .ok code ∧ init = b! " = " ++ code) ∧
      s = joinWith (b! ", ") c.names ++ (match c.type with
        | .nil => []
        | .name t => fprintf env h (b! " %v") [.typeName t]
        | .spec p => fprintf env h (b! " %v") [.typeSpec p]) ++ init ++ b! "\n" := by
  obtain ⟨init, hi, hs⟩ := bind_eq_ok hs
  refine ⟨init, ?_, ?_⟩
  · cases hc : c.init with
    | none => rw [hc] at hi; cases hi; exact .inl ⟨rfl, rfl⟩
    | some b =>
      rw [hc] at hi
      obtain ⟨cb, h1, hi⟩ := bind_eq_ok hi
      obtain ⟨code, h2, hi⟩ := bind_eq_ok hi
      cases hi
      exact .inr ⟨b, cb, code, rfl, deref_eq_ok h1, h2, rfl⟩
  · cases hs
    cases c.type <;> simp [TypeRef.arg]

/-- C41: declarations without specs and comment panic. -/
theorem C41_empty_panics (env : Env) (h : Heap) (fuel : Nat) (k : ValueKind) :
    ValueDecl.text env h { kind := k, specs := [] } = .panic ∧
      TypeDecl.text env h fuel { types := [] } = .panic := ⟨rfl, rfl⟩

/-- C41: a type declaration is Go source that declares the types of its specs, in order.
The bodies that rendering gets wrong (see `BodyOf`) are no such specs; C41_types_parse_iff says that these are the only
exceptions. -/
theorem C41_types_parse (env : Env) {h : Heap} {d : TypeDecl} {ds : List DeclaredType}
    (hne : d.types ≠ [] ∨ d.comment ≠ []) (hd : List.Forall₂ (DeclaresType h) d.types ds) :
    Renders env h d ds := decl_text hne hd

/-- Two types and two constants with comments. -/
def exDecls : Heap where
  types p := if p = 0 then some { name := b! "T", underlying := .basic .int, comment := b! "t" }
    else if p = 1 then some { name := b! "U", underlying := .ptr (.basic .int), isAlias := true } else none
  values p := if p = 0 then some { kind := .const, names := [b! "A", b! "B"], comment := b! "a" }
    else if p = 1 then some { kind := .const, names := [b! "C"], init := some 0, type := .name (.basic .int) } else none
  blocks p := if p = 0 then some [.line (b! "1") 0] else none
  args p := if p = 0 then some [] else none

example : TypeDecl.text exEnv exDecls 3 { types := [0, 1] } =
    .ok (b! "type (\n// t\nT  int\nU =  *int\n)\n") := by decide
example : TypeDecl.text exEnv exDecls 3 { types := [0] } = .ok (b! "// t\ntype T  int\n") := by decide
example : TypeDecl.text exEnv exDecls 3 { types := [0], comment := b! "d" } =
    .ok (b! "// d\ntype (\n// t\nT  int\n)\n") := by decide
example : TypeDecl.text exEnv exDecls 3 { types := [], comment := b! "d" } =
    .ok (b! "// d\ntype (\n)\n") := by decide
example : ValueDecl.text exEnv exDecls { kind := .const, specs := [0, 1] } =
    .ok (b! "const (\n// a\nA, B\nC int = 1\n)\n") := by decide
example : ValueDecl.text exEnv exDecls { kind := .const, specs := [0] } =
    .ok (b! "// a\nconst A, B\n") := by decide

/-! ## C45 -/

/-- The types that have methods: the name of the type, and whether it is a pointer to it. -/
inductive ReceiverType (h : Heap) : TypeRef → GoString → Bool → Prop
  | named (s : Symbol) : ReceiverType h (.name (.named s)) s.name false
  | ptr (s : Symbol) : ReceiverType h (.name (.ptr (.named s))) s.name true
  | spec {p : Ptr} {t : TypeSpec} : h.types p = some t → t.name ≠ [] → ReceiverType h (.spec p) t.name false

/-- The function types: the signature has types everywhere, and a last parameter that takes several
values is a slice. -/
def FuncTypeFrom (s : Signature) (t : TypeName) : Prop :=
  t = .func s ∧ (∀ a ∈ s.args, a.type ≠ .nil) ∧ (∀ a ∈ s.results, a.type ≠ .nil) ∧
    (s.isVariadic = true → ∃ a e, s.args.getLast? = some a ∧ a.type = .slice e)

theorem isNil_eq {t : TypeName} : t.isNil = true ↔ t = .nil := by
  cases t <;> simp [TypeName.isNil]

theorem funcTypeFrom_iff {s : Signature} {t : TypeName} :
    funcTypeFromSig s = .ok t ↔ FuncTypeFrom s t := by
  rw [funcTypeFromSig, FuncTypeFrom]
  by_cases h1 : s.args.any (·.type.isNil) = true
  · rw [if_pos h1]
    obtain ⟨a, ha, h2⟩ := List.any_eq_true.1 h1
    simp only [reduceCtorEq, false_iff, not_and]
    exact fun _ h => (h a ha (isNil_eq.1 h2)).elim
  rw [if_neg h1]
  by_cases h2 : s.results.any (·.type.isNil) = true
  · rw [if_pos h2]
    obtain ⟨a, ha, h2⟩ := List.any_eq_true.1 h2
    simp only [reduceCtorEq, false_iff, not_and]
    exact fun _ _ h => (h a ha (isNil_eq.1 h2)).elim
  rw [if_neg h2]
  have k1 : ∀ a ∈ s.args, a.type ≠ .nil :=
    fun a ha e => h1 (List.any_eq_true.2 ⟨a, ha, isNil_eq.2 e⟩)
  have k2 : ∀ a ∈ s.results, a.type ≠ .nil :=
    fun a ha e => h2 (List.any_eq_true.2 ⟨a, ha, isNil_eq.2 e⟩)
  cases hv : s.isVariadic
  · simp [eq_comm]
    exact fun _ => ⟨fun a ha e => k1 a ha e.symm, fun a ha e => k2 a ha e.symm⟩
  · simp only [if_true]
    cases hl : s.args.getLast? with
    | none => simp
    | some a =>
      obtain ⟨n, t'⟩ := a
      cases t' <;> simp [TypeName.kind, eq_comm]
      intro _
      exact ⟨fun a ha e => k1 a ha e.symm, fun a ha e => k2 a ha e.symm⟩

/-- The full claim of C45 about accepted types. It fails, see `C45_accepts_full_fails`. -/
def C45_accepts_full : Prop := ∀ (h : Heap) (n : GoString) (t : TypeRef) (r : ReceiverSpec),
  newReceiverForType h n t = .ok r ↔ ReceiverType h t r.type r.isPointer ∧ r.name = n

/-- C45: without a type there is no panic but a receiver without type. -/
theorem C45_accepts_full_fails : ¬ C45_accepts_full := by
  intro h
  have := (h {} [] .nil ⟨[], [], false⟩).1 rfl
  obtain ⟨hr, -⟩ := this
  cases hr

/-- C45: a receiver is made for a named type, a pointer to one and a named spec, and for nothing else;
it has the unqualified name. Missing for the full statement: the nil type. -/
theorem C45_newReceiverForType_partial (h : Heap) (n : GoString) {t : TypeRef} (ht : t ≠ .nil)
    (r : ReceiverSpec) :
    newReceiverForType h n t = .ok r ↔ ReceiverType h t r.type r.isPointer ∧ r.name = n := by
  constructor
  · intro hr
    match t, ht with
    | .spec p, _ =>
      obtain ⟨ts, hp, hr⟩ := bind_eq_ok hr
      by_cases h0 : ts.name = []
      · rw [if_pos h0] at hr; simp at hr
      · rw [if_neg h0] at hr; cases hr
        exact ⟨.spec (deref_eq_ok hp) h0, rfl⟩
    | .name (.named s), _ => cases hr; exact ⟨.named s, rfl⟩
    | .name (.ptr e), _ =>
      cases e <;> first | (cases hr; exact ⟨.ptr _, rfl⟩) | cases hr
    | .name .nil, _ | .name (.basic _), _ | .name (.slice _), _ | .name (.array _ _), _
    | .name (.map _ _), _ | .name (.chan _ _), _ | .name (.func _), _ | .name (.struct _), _
    | .name (.interface _ _), _ => cases hr
  · rintro ⟨hr, rfl⟩
    obtain ⟨rn, rt, rp⟩ := r
    simp only at hr
    cases hr with
    | named s => rfl
    | ptr s => rfl
    | spec hp h0 =>
      rw [newReceiverForType, deref, hp]
      simp [bind, Outcome.bind, h0, pure]

/-- C45: a pointer receiver is made for a named type and a named spec, and for nothing else.
Missing for the full statement: the nil type. -/
theorem C45_newPointerReceiverForType_partial (h : Heap) (n : GoString) {t : TypeRef} (ht : t ≠ .nil)
    (r : ReceiverSpec) : newPointerReceiverForType h n t = .ok r ↔
      ReceiverType h t r.type false ∧ r.isPointer = true ∧ r.name = n := by
  constructor
  · intro hr
    match t, ht with
    | .spec p, _ =>
      obtain ⟨ts, hp, hr⟩ := bind_eq_ok hr
      by_cases h0 : ts.name = []
      · rw [if_pos h0] at hr; simp at hr
      · rw [if_neg h0] at hr; cases hr
        exact ⟨.spec (deref_eq_ok hp) h0, rfl, rfl⟩
    | .name (.named s), _ => cases hr; exact ⟨.named s, rfl, rfl⟩
    | .name .nil, _ | .name (.basic _), _ | .name (.slice _), _ | .name (.array _ _), _
    | .name (.map _ _), _ | .name (.chan _ _), _ | .name (.func _), _ | .name (.struct _), _
    | .name (.interface _ _), _ | .name (.ptr _), _ => cases hr
  · rintro ⟨hr, h1, rfl⟩
    obtain ⟨rn, rt, rp⟩ := r
    simp only at hr h1
    subst h1
    cases hr with
    | named s => rfl
    | spec hp h0 =>
      rw [newPointerReceiverForType, deref, hp]
      simp [bind, Outcome.bind, h0, pure]

/-- C45: constructors never give other results than receivers and panics. -/
theorem C45_no_hang (h : Heap) (n : GoString) (t : TypeRef) :
    newReceiverForType h n t ≠ .hang ∧ newPointerReceiverForType h n t ≠ .hang := by
  match t with
  | .nil => exact ⟨by simp [newReceiverForType], by simp [newPointerReceiverForType]⟩
  | .spec p =>
    simp only [newReceiverForType, newPointerReceiverForType, deref]
    cases h.types p with
    | none => exact ⟨by simp [bind, Outcome.bind], by simp [bind, Outcome.bind]⟩
    | some t => constructor <;> simp only [bind, Outcome.bind, pure] <;> split <;> simp
  | .name (.ptr e) => exact ⟨by cases e <;> exact nofun, nofun⟩
  | .name .nil | .name (.basic _) | .name (.slice _) | .name (.array _ _) | .name (.named _)
  | .name (.map _ _) | .name (.chan _ _) | .name (.func _) | .name (.struct _)
  | .name (.interface _ _) => exact ⟨nofun, nofun⟩

/-- C45: the names given directly; only `NewReceiver` checks them. -/
theorem C45_newReceiver (n t : GoString) :
    newReceiver n t = (if t = [] then .panic else .ok ⟨n, t, false⟩) ∧
      newPointerReceiver n t = ⟨n, t, true⟩ := ⟨rfl, rfl⟩

/-- C45: the type of a function is its signature. -/
theorem C45_func_type {h : Heap} {f : FuncSpec} (hr : f.receiver = none) (t : TypeName) :
    f.toTypeName h = .ok t ↔ FuncTypeFrom f.signature t := by
  rw [FuncSpec.toTypeName, hr]; exact funcTypeFrom_iff

/-- C45: the type of a method has one more parameter in front: the receiver, which is the type with
the receiver's name in the package of the file, or a pointer to it. -/
theorem C45_method_type {h : Heap} {f : FuncSpec} {r : ReceiverSpec} {p : Ptr} {file : GoFile}
    (hr : f.receiver = some r) (hp : f.parent = some p) (hf : h.files p = some file) (t : TypeName) :
    f.toTypeName h = .ok t ↔ ∃ rt, rt = (if r.isPointer then .ptr (.named ⟨file.package, r.type⟩)
        else .named ⟨file.package, r.type⟩) ∧
      FuncTypeFrom ⟨⟨r.name, rt⟩ :: f.signature.args, f.signature.results, f.signature.isVariadic⟩ t := by
  rw [FuncSpec.toTypeName, hr, hp]
  simp only [packageAt, deref, hf, bind, Outcome.bind, pure]
  cases r.isPointer
  · simp [namedType, funcTypeFrom_iff]
  · simp [namedType, pointerType, TypeName.isNil, funcTypeFrom_iff]

/-- C45: outside of a file the type of a method is unknown. -/
theorem C45_method_without_file {h : Heap} {f : FuncSpec} {r : ReceiverSpec}
    (hr : f.receiver = some r) (hp : f.parent = none) : f.toTypeName h = .panic := by
  rw [FuncSpec.toTypeName, hr, hp]

/-- C45: the type of an interface method has one more parameter in front, without name: the interface type, by its
name in the package of the file or, if it has none, the interface type itself. -/
theorem C45_interface_method_type {h : Heap} {m : InterfaceMethod} {p : Ptr} {ts : TypeSpec}
    (hp : m.parent = some p) (ht : h.types p = some ts) (t : TypeName) :
    m.toTypeName h = .ok t ↔ ∃ rt,
      (ts.name = [] ∧ rt = ts.underlying ∨
        ∃ f file, ts.name ≠ [] ∧ ts.parent = some f ∧ h.files f = some file ∧ rt = .named ⟨file.package, ts.name⟩) ∧
      FuncTypeFrom ⟨⟨[], rt⟩ :: m.signature.args, m.signature.results, m.signature.isVariadic⟩ t := by
  rw [InterfaceMethod.toTypeName, hp]
  simp only [deref, ht, bind, Outcome.bind, pure, TypeSpec.toTypeName]
  by_cases hn : ts.name = []
  · simp [hn, funcTypeFrom_iff]
  · simp only [TypeSpec.toSymbol, hn, false_and, false_or, ne_eq, not_false_eq_true, true_and]
    cases hf : ts.parent with
    | none => simp
    | some f =>
      cases hx : h.files f with
      | none => simp [packageAt, deref, hx, bind, Outcome.bind]
      | some file => simp [packageAt, deref, hx, bind, Outcome.bind, pure, namedType, funcTypeFrom_iff]

/-- C45: an interface method that belongs to no interface has no type. -/
theorem C45_interface_method_without_type {h : Heap} {m : InterfaceMethod} (hp : m.parent = none) :
    m.toTypeName h = .panic ∧ m.toMethodRef h = .panic := by
  rw [InterfaceMethod.toTypeName, InterfaceMethod.toMethodRef, hp]; exact ⟨rfl, rfl⟩

/-- C45: the reference to an interface method consists of its name and the symbol of its interface, which has to have
a name and a file. -/
theorem C45_interface_method_ref {h : Heap} {m : InterfaceMethod} {p : Ptr} {ts : TypeSpec}
    (hp : m.parent = some p) (ht : h.types p = some ts) (r : MethodReference) :
    m.toMethodRef h = .ok r ↔ ∃ f file, ts.name ≠ [] ∧ ts.parent = some f ∧ h.files f = some file ∧
      r = ⟨⟨file.package, ts.name⟩, m.name⟩ := by
  rw [InterfaceMethod.toMethodRef, hp]
  simp only [deref, ht, bind, Outcome.bind, pure, TypeSpec.toSymbol]
  by_cases hn : ts.name = []
  · simp [hn]
  · cases hf : ts.parent with
    | none => simp [hn]
    | some f =>
      cases hx : h.files f with
      | none => simp [hn, packageAt, deref, hx, bind, Outcome.bind]
      | some file => simp [hn, packageAt, deref, hx, bind, Outcome.bind, pure, eq_comm]

/-- A function is written as comment, header and code; what Go reads in the header depends only on how
it reads the signature. -/
theorem func_header (env : Env) (h : Heap) {f : FuncSpec} {code : GoString}
    (hn : isIdent f.name = true) (hv : f.signature.valid = true) (hw : f.signature.wellNamed = true)
    (hr : ∀ r, f.receiver = some r → (r.name = [] ∨ isIdent r.name = true) ∧ isIdent r.type = true)
    (hc : codeText env h f.code = .ok code) :
    ∃ doc header g, 4 * f.signature.toks.length ≤ g ∧ CommentBlock f.comment doc ∧
      f.text env h = .ok (doc ++ header ++ b! "\n" ++ code ++ b! "}\n") ∧
      parseGoFuncHeader header = (parseSig g (f.signature.toks ++ [.lbrace])).bind fun x =>
        if x.2 = [.lbrace] then some ⟨f.receiver.map ReceiverSpec.param, f.name, x.1⟩ else none := by
  obtain ⟨w, hs, hl, w', rfl⟩ := render_sig env.isPrint hv hw
  obtain ⟨l, hx⟩ : ∃ l, f.signature.toks = .lparen :: l := by
    match f.signature with
    | ⟨args, results, v⟩ => exact ⟨_, rfl⟩
  have hlex : Lex (f.name ++ 40 :: w' ++ b! " {") (.ident f.name :: (f.signature.toks ++ [.lbrace])) := by
    rw [List.append_assoc]
    refine Lex.ident hn (delim_cons (by decide)) ?_
    exact hl _ _ (delim_cons (by decide)) (Lex.space (Lex.punct' (by decide) Lex.nil))
  have ht : f.text env h = .ok (writeComment f.comment ++ (b! "func " ++ (match f.receiver with
        | none => []
        | some r => r.text) ++ (f.name ++ 40 :: w' ++ b! " {")) ++ b! "\n" ++ code ++ b! "}\n") := by
    rw [FuncSpec.text, hs, hc]
    cases f.receiver <;> simp [bind, Outcome.bind, pure]
  suffices hq : ∃ g, 4 * f.signature.toks.length ≤ g ∧ parseGoFuncHeader (b! "func " ++ (match f.receiver with
        | none => []
        | some r => r.text) ++ (f.name ++ 40 :: w' ++ b! " {")) =
      (parseSig g (f.signature.toks ++ [.lbrace])).bind fun x =>
        if x.2 = [.lbrace] then some ⟨f.receiver.map ReceiverSpec.param, f.name, x.1⟩ else none by
    obtain ⟨g, h1, h2⟩ := hq
    exact ⟨_, _, g, h1, commentBlock_writeComment _, ht, h2⟩
  · rw [parseGoFuncHeader]
    cases hrc : f.receiver with
    | none =>
      have : Lex (b! "func " ++ [] ++ (f.name ++ 40 :: w' ++ b! " {"))
          (.kw .kFunc :: .ident f.name :: (f.signature.toks ++ [.lbrace])) :=
        Lex.kw (w := b! "func") (by decide) (delim_cons (by decide)) hlex.space
      rw [this.lex]
      simp only [Option.bind_eq_bind, Option.bind_some, parseFuncHeader]
      exact ⟨_, by simp; omega, rfl⟩
    | some r =>
      obtain ⟨h1, h2⟩ := hr r hrc
      have : Lex (b! "func " ++ r.text ++ (f.name ++ 40 :: w' ++ b! " {"))
          (.kw .kFunc :: .lparen :: ((if r.name ≠ [] then [.ident r.name] else []) ++
            ((if r.isPointer then [.star] else []) ++ .ident r.type :: .rparen :: .ident f.name
              :: (f.signature.toks ++ [.lbrace])))) := by
        rw [ReceiverSpec.text]
        simp only [List.append_assoc]
        refine Lex.kw (w := b! "func") (by decide) (delim_cons (by decide)) (Lex.space ?_)
        refine Lex.punct' (by decide) ?_
        have key : Lex ((if r.isPointer then b! "*" else []) ++ (r.type ++ (b! ") " ++ (f.name ++ (40 :: w' ++ b! " {")))))
            ((if r.isPointer then [.star] else []) ++ .ident r.type :: .rparen :: .ident f.name
              :: (f.signature.toks ++ [.lbrace])) := by
          have k2 : Lex (r.type ++ (b! ") " ++ (f.name ++ (40 :: w' ++ b! " {")))) (.ident r.type :: .rparen :: .ident f.name
              :: (f.signature.toks ++ [.lbrace])) := by
            refine Lex.ident h2 (delim_cons (by decide)) (Lex.punct' (by decide) (Lex.space ?_))
            simpa using hlex
          cases r.isPointer
          · exact k2
          · exact Lex.punct' (by decide) k2
        by_cases h0 : r.name = []
        · simp only [h0, ne_eq, not_true_eq_false, if_false]; exact key
        · have hi : isIdent r.name = true := h1.resolve_left h0
          simp only [ne_eq, h0, not_false_eq_true, if_true]
          rw [List.append_assoc]
          exact Lex.ident hi (delim_cons (by decide)) key.space
      rw [this.lex]
      simp only [Option.bind_eq_bind, Option.bind_some, parseFuncHeader]
      have he : ∀ (g : Nat) (rest : List Tok), 5 ≤ g →
          parseEntries g ((if r.name ≠ [] then [.ident r.name] else []) ++
            ((if r.isPointer then [.star] else []) ++ .ident r.type :: .rparen :: rest)) =
          some ([⟨optName r.name, false, if r.isPointer then .ptr (.name (none, r.type)) else .name (none, r.type)⟩],
            rest) := by
        intro g rest hg
        obtain ⟨g, rfl⟩ : ∃ k, g = k + 5 := ⟨g - 5, by omega⟩
        by_cases h0 : r.name = [] <;> cases r.isPointer <;>
          simp [h0, optName, parseEntries, parseEntry, parseType, typeName]
      rw [he _ _ (by simp; omega)]
      simp only [Option.bind_some]
      have hpl : paramList [⟨optName r.name, false, if r.isPointer then .ptr (.name (none, r.type))
          else .name (none, r.type)⟩] = some ([r.param], false) := by
        by_cases h0 : r.name = [] <;>
          simp [paramList, optName, h0, groupNames, checkVariadic, ReceiverSpec.param]
      rw [hpl]
      simp only [Option.bind_some]
      exact ⟨_, by simp; omega, rfl⟩

/-- C45: a function is written as comment, header and code, and Go reads the header as that of a function
with this receiver, name and signature. Missing for the full statement: signatures that rendering
gets wrong. -/
theorem C45_header_partial (env : Env) (h : Heap) {f : FuncSpec} {code : GoString}
    (hn : isIdent f.name = true) (hv : f.signature.valid = true) (hw : f.signature.wellNamed = true)
    (hu : f.signature.unproblematic = true)
    (hr : ∀ r, f.receiver = some r → (r.name = [] ∨ isIdent r.name = true) ∧ isIdent r.type = true)
    (hc : codeText env h f.code = .ok code) :
    ∃ doc header, CommentBlock f.comment doc ∧
      f.text env h = .ok (doc ++ header ++ b! "\n" ++ code ++ b! "}\n") ∧
      parseGoFuncHeader header = some ⟨f.receiver.map ReceiverSpec.param, f.name, f.signature.syntax⟩ := by
  obtain ⟨doc, header, g, hg, h1, h2, h3⟩ := func_header env h hn hv hw hr hc
  refine ⟨doc, header, h1, h2, ?_⟩
  rw [h3, parse_sig (rest := [.lbrace]) hv hw hu hg trivial]
  simp

/-- C45, exactly: Go reads the header as that of a function with this receiver, name and signature if
and only if the signature contains no interface with both embedded interfaces and methods and no
bidirectional channel of receive-only channels. -/
theorem C45_header_iff (env : Env) (h : Heap) {f : FuncSpec} {code : GoString}
    (hn : isIdent f.name = true) (hv : f.signature.valid = true) (hw : f.signature.wellNamed = true)
    (hr : ∀ r, f.receiver = some r → (r.name = [] ∨ isIdent r.name = true) ∧ isIdent r.type = true)
    (hc : codeText env h f.code = .ok code) :
    ∃ doc header, CommentBlock f.comment doc ∧
      f.text env h = .ok (doc ++ header ++ b! "\n" ++ code ++ b! "}\n") ∧
      (parseGoFuncHeader header = some ⟨f.receiver.map ReceiverSpec.param, f.name, f.signature.syntax⟩ ↔
        f.signature.unproblematic = true) := by
  obtain ⟨doc, header, g, hg, h1, h2, h3⟩ := func_header env h hn hv hw hr hc
  refine ⟨doc, header, h1, h2, fun hp => ?_, fun hu => ?_⟩
  · rw [h3, Option.bind_eq_some_iff] at hp
    obtain ⟨⟨u, r⟩, hp, he⟩ := hp
    simp only at he
    split at he
    · simp only [Option.some.injEq, FuncHeader.mk.injEq] at he
      exact exact_sig (rest := [.lbrace]) hv hw hg trivial hp (by rw [he.2.2])
    · simp at he
  · rw [h3, parse_sig (rest := [.lbrace]) hv hw hu hg trivial]
    simp

example : FuncSpec.text exEnv {} { name := b! "Do", receiver := some ⟨b! "r", b! "T", true⟩, comment := b! "c" } =
    .ok (b! "// c\nfunc (r *T) Do() {\n}\n") := by decide
example : newReceiverForType {} (b! "r") (.name (.ptr (.named ⟨⟨b! "a/b", b! "b"⟩, b! "T"⟩))) =
    .ok ⟨b! "r", b! "T", true⟩ := by decide
example : newPointerReceiverForType {} (b! "r") (.name (.ptr (.named ⟨⟨b! "a/b", b! "b"⟩, b! "T"⟩))) =
    .panic := by decide
example : FuncSpec.toTypeName { files := fun _ => some ⟨newImportsFor (b! "a/b"), b! "f", [], [], b! "b", [], []⟩ }
    { name := b! "Do", receiver := some ⟨b! "r", b! "T", true⟩, parent := some 0,
      signature := ⟨[⟨[], .slice (.basic .int)⟩], [], true⟩ } =
    .ok (.func ⟨[⟨b! "r", .ptr (.named ⟨⟨b! "a/b", b! "b"⟩, b! "T"⟩)⟩, ⟨[], .slice (.basic .int)⟩], [], true⟩) := by rfl
/-- the method `Do(...int)` of the interface `I` -/
example : InterfaceMethod.toTypeName
    { files := fun _ => some ⟨newImportsFor (b! "a/b"), b! "f", [], [], b! "b", [], []⟩,
      types := fun _ => some { name := b! "I", underlying := .interface [] [], parent := some 0 } }
    { name := b! "Do", signature := ⟨[⟨[], .slice (.basic .int)⟩], [], true⟩, parent := some 0 } =
    .ok (.func ⟨[⟨[], .named ⟨⟨b! "a/b", b! "b"⟩, b! "I"⟩⟩, ⟨[], .slice (.basic .int)⟩], [], true⟩) := by rfl

end Gopoet
