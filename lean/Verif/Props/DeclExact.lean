import Verif.Proof.DeclExact
import Verif.Props.TypeDecls
/-! Properties C39, C40 and C41: exactly which declarations of types are rendered right. -/

namespace Gopoet

/-! ## C41 -/

/-- The declaration of a spec alone renders as `type Name T` or `type Name = T`, exactly if it is one
that can be written. -/
theorem StandsType.renders_iff {env : Env} {h : Heap} {p : Ptr} {d : DeclaredType} (hd : StandsType h p d) :
    RendersAs env h p d ↔ DeclaresType h p d := by
  refine ⟨fun hr => ?_, DeclaresType.renders⟩
  obtain ⟨n, s, h1, _, h3⟩ := decl_text_iff (env := env) (d := { types := [p] }) (ds := [d]) (by simp)
    (.cons hd .nil)
  obtain ⟨t, ht, h4⟩ := h3 (by simp)
  cases ht
  obtain ⟨n', s', h1', h2'⟩ := hr
  have e := h1 (max n n') (by omega)
  rw [h1' (max n n') (by omega)] at e
  cases e
  rw [h4, List.forall₂_cons] at h2'
  exact h2'.1

/-- C41, exactly: a type declaration whose specs stand for the types `ds` is Go source that declares
these types, in order, if and only if every spec is one that can be written: no tag on a field whose
type is written on several lines, and no type on a line that rendering gets wrong. -/
theorem C41_types_parse_iff (env : Env) {h : Heap} {d : TypeDecl} {ds : List DeclaredType}
    (hne : d.types ≠ [] ∨ d.comment ≠ []) (hd : List.Forall₂ (StandsType h) d.types ds) :
    Renders env h d ds ↔ List.Forall₂ (DeclaresType h) d.types ds := by
  refine ⟨fun hr => ?_, fun hd => decl_text hne hd⟩
  obtain ⟨n, s, h1, h2, h3⟩ := decl_text_iff (env := env) hne hd
  obtain ⟨n', s', h1', h2', h3'⟩ := hr
  have e := h1 (max n n') (by omega)
  rw [h1' (max n n') (by omega)] at e
  cases e
  by_cases hg : d.types.length > 1 ∨ d.comment ≠ []
  · exact (h2 hg).1 (h2' hg)
  · obtain ⟨t, ht, h4⟩ := h3 hg
    obtain ⟨t', ht', h5⟩ := h3' hg
    rw [ht] at ht'; cases ht'
    exact h4.1 h5

/-! ## C39 -/

theorem fieldsStand_alloc {h : Heap} {par : Option Ptr} {ps : List Ptr} {fs : List FieldType}
    (hp : List.Forall₂ (fun p (f : FieldType) => h.fields p =
      some { name := f.name, type := fieldRef f.type, tag := f.tag, parent := par }) ps fs)
    (hv : validFields fs = true) (hw : wellNamedFields fs = true) :
    FieldsStand h ps (syntaxFields fs) ∧
      (FieldsOf h ps (syntaxFields fs) → multilineFields fs = true) := by
  induction hp with
  | nil => exact ⟨.nil, fun _ => rfl⟩
  | @cons p f ps fs h1 _ ih =>
    obtain ⟨n, t, tag⟩ := f
    simp only [validFields, wellNamedFields, Bool.and_eq_true, Bool.or_eq_true, beq_iff_eq] at hv hw
    rw [fieldRef_name hv.1] at h1
    obtain ⟨i1, i2⟩ := ih hv.2 hw.2
    refine ⟨.cons h1 (.type (f := { name := n, type := .name t, tag, parent := par }) rfl hv.1 hw.1.2 hw.1.1)
      i1, fun ho => ?_⟩
    rw [syntaxFields] at ho
    cases ho with
    | cons h2 h3 h4 =>
      rw [h1] at h2; cases h2
      have := (fieldOf_name_iff (f := { name := n, type := .name t, tag, parent := par }) rfl hv.1 hw.1.2
        hw.1.1).1 h3
      simp only [multilineFields, Bool.and_eq_true, Bool.or_eq_true, Bool.not_eq_true', beq_iff_eq]
      refine ⟨⟨?_, this.1⟩, i2 h4⟩
      cases hb : t.isBlock with
      | false => exact Or.inl rfl
      | true => exact Or.inr (this.2 hb)

theorem elemsStand_embeds {h : Heap} {ps : List IfaceElem} {es : List Symbol}
    (hp : List.Forall₂ (EmbedIs h) ps es) (hw : es.all Symbol.wellNamed = true) :
    List.Forall₂ (ElemStands h) ps (es.map fun s => .embed s.syntaxName) := by
  induction hp with
  | nil => exact .nil
  | cons h1 _ ih =>
    simp only [List.all_cons, Bool.and_eq_true] at hw
    obtain ⟨p, E, rfl, h2, rfl⟩ := h1
    exact .cons (.embed h2 hw.1) (ih hw.2)

theorem elemsStand_methods {h : Heap} {ps : List IfaceElem} {ms : List MethodType}
    (hp : List.Forall₂ (MethodIs h) ps ms) (hv : validMethods ms = true) (hw : wellNamedMethods ms = true) :
    List.Forall₂ (ElemStands h) ps (syntaxMethods ms) ∧
      (ElemsOf h ps (syntaxMethods ms) → unproblematicMethods ms = true) := by
  induction hp with
  | nil => exact ⟨.nil, fun _ => rfl⟩
  | @cons e m ps ms h1 _ ih =>
    obtain ⟨n, s⟩ := m
    simp only [validMethods, wellNamedMethods, Bool.and_eq_true] at hv hw
    obtain ⟨p, M, rfl, h2, rfl, rfl⟩ := h1
    obtain ⟨i1, i2⟩ := ih hv.2 hw.2
    refine ⟨.cons (.method h2 hw.1.1 hv.1 hw.1.2) i1, fun ho => ?_⟩
    rw [syntaxMethods] at ho
    simp only [unproblematicMethods, Bool.and_eq_true]
    generalize hg : GoElem.method M.name M.signature.syntax = g at ho
    cases ho with
    | cons h3 h4 =>
      cases h3 with
      | method h5 _ _ _ h6 => rw [h2] at h5; cases h5; exact ⟨h6, i2 h4⟩

theorem elemsOf_append_right {h : Heap} : ∀ {es es' : List IfaceElem} {l l' : List (GoElem SynName)},
    es.length = l.length → ElemsOf h (es ++ es') (l ++ l') → ElemsOf h es' l'
  | [], _, [], _, _, ho => ho
  | [], _, _ :: _, _, hl, _ => by simp at hl
  | _ :: _, _, [], _, hl, _ => by simp at hl
  | _ :: es, es', _ :: l, l', hl, ho => by
    rw [List.cons_append, List.cons_append] at ho
    cases ho with
    | cons _ ho => exact elemsOf_append_right (by simpa using hl) ho

theorem stands_newTypeSpec {h h' : Heap} {n : GoString} {t : TypeName} {p : Ptr}
    (hn : newTypeSpec h n (.name t) = .ok (p, h')) (hv : t.valid = true) (hw : t.wellNamed = true)
    (hi : isIdent n = true) : StandsType h' p ⟨n, false, t.syntax⟩ ∧
      (DeclaresType h' p ⟨n, false, t.syntax⟩ → t.multiline = true) := by
  have plain : ∀ u : TypeName, u.isBlock = false → u.valid = true → u.wellNamed = true →
      Outcome.ok (h.allocType { name := n, underlying := u }) = .ok (p, h') →
      StandsType h' p ⟨n, false, u.syntax⟩ ∧
        (DeclaresType h' p ⟨n, false, u.syntax⟩ → u.multiline = true) := by
    intro u hu h1 h2 he
    cases he
    refine ⟨⟨_, upd_same .., hi, rfl, rfl, BodyStands.other (ts := { name := n, underlying := u }) hu h1 h2⟩, ?_⟩
    intro hd
    have := (declaresType_iff (ts := { name := n, underlying := u }) (upd_same ..) hi).1 hd
    rw [multiline_line hu]
    exact (bodyOf_other_iff (ts := { name := n, underlying := u }) hu h1 h2).1 this
  cases t with
  | nil => simp [TypeName.valid] at hv
  | struct fs =>
    obtain ⟨_, h4⟩ := allocFields_spec fs { h with next := h.next + 1 } h.next
    cases hn
    have key : ∀ (H : Heap) (par : Option Ptr) (ts : TypeSpec), H.types h.next = some ts → ts.name = n →
        ts.isAlias = false → ts.underlying = .struct fs →
        List.Forall₂ (fun p (f : FieldType) => H.fields p =
          some { name := f.name, type := fieldRef f.type, tag := f.tag, parent := par }) ts.structBody fs →
        StandsType H h.next ⟨n, false, .struct (syntaxFields fs)⟩ ∧
          (DeclaresType H h.next ⟨n, false, .struct (syntaxFields fs)⟩ → multilineFields fs = true) := by
      intro H par ts h1 h2 h3 h5 h6
      obtain ⟨m1, m2⟩ := fieldsStand_alloc h6 hv hw
      refine ⟨⟨ts, h1, by rw [h2]; exact hi, h2.symm, h3.symm, .struct h5 m1⟩, ?_⟩
      rintro ⟨ts', ht, -, -, -, hb⟩
      rw [h1] at ht; cases ht
      exact m2 ((bodyOf_struct_iff h5).1 hb)
    exact key _ _ _ (upd_same ..) rfl rfl rfl (h4.imp fun p f hp => hp.2)
  | interface ms es =>
    obtain ⟨ts, h1, h2, h3, h4, h5, h6⟩ := C39_newTypeSpec hn
    simp only [TypeName.wellNamed, Bool.and_eq_true] at hw
    cases h5 with
    | iface h7 h8 h9 =>
      have he := elemsStand_embeds h8 hw.2
      have hm := elemsStand_methods h9 hv hw.1
      refine ⟨⟨ts, h1, by rw [h2]; exact hi, h2.symm, h3.symm, .iface h4 ?_⟩, ?_⟩
      · rw [h6]; exact List.rel_append he hm.1
      · rintro ⟨ts', ht, -, -, -, hb⟩
        rw [h1] at ht; cases ht
        have hb := (bodyOf_iface_iff h4).1 hb
        rw [h6] at hb
        exact hm.2 (elemsOf_append_right (by simpa using h8.length_eq) hb)
    | other h7 => simp [TypeName.isBlock] at h7
  | _ => exact plain _ rfl hv hw hn

/-- C39, exactly: the declaration of the spec renders as Go source that declares the name to be the type
if and only if the type can be written: fields with a struct or interface type have no tag, and the types
on the lines contain no interface with embedded interfaces and methods and no bidirectional channel of
receive-only channels. -/
theorem C39_newTypeSpec_renders_iff (env : Env) {h h' : Heap} {n : GoString} {t : TypeName} {p : Ptr}
    (hn : newTypeSpec h n (.name t) = .ok (p, h')) (hv : t.valid = true) (hw : t.wellNamed = true)
    (hi : isIdent n = true) : RendersAs env h' p ⟨n, false, t.syntax⟩ ↔ t.multiline = true := by
  obtain ⟨h1, h2⟩ := stands_newTypeSpec hn hv hw hi
  rw [h1.renders_iff]
  exact ⟨h2, fun hm => declares_newTypeSpec hn hv hw hm hi⟩

/-- The field stands for a field with its type, name and tag. -/
def FieldSound (h : Heap) (p : Ptr) : Prop :=
  ∃ F t, h.fields p = some F ∧ F.type.IsType h t ∧
    FieldStands h F (.mk (optName F.name) t.syntax (optName F.tag))

theorem fieldsStand_of_sound {h : Heap} {ps : List Ptr} {fs : List FieldType}
    (h1 : List.Forall₂ (FieldIs h) ps fs) (h2 : ∀ p ∈ ps, FieldSound h p) :
    FieldsStand h ps (syntaxFields fs) ∧ (FieldsOf h ps (syntaxFields fs) → ∀ p ∈ ps, FieldOk h p) := by
  induction h1 with
  | nil => exact ⟨.nil, fun _ p hp => by simp at hp⟩
  | @cons p f ps fs hp _ ih =>
    obtain ⟨F, t, h3, h4, h5⟩ := h2 p (by simp)
    obtain ⟨F', h6, h7, h8, h9⟩ := hp
    rw [h3] at h6; cases h6
    obtain ⟨n, u, tag⟩ := f
    simp only at h7 h8 h9
    cases isType_unique h4 h9
    subst h7 h8
    obtain ⟨i1, i2⟩ := ih fun p hp => h2 p (by simp [hp])
    refine ⟨.cons h3 h5 i1, fun ho q hq => ?_⟩
    rw [syntaxFields] at ho
    cases ho with
    | cons a1 a2 a3 =>
      rw [h3] at a1; cases a1
      rcases List.mem_cons.1 hq with rfl | hq
      · exact ⟨F, t, h3, h4, a2⟩
      · exact i2 a3 q hq

/-- C39, exactly, for `NewStructTypeSpec`: its declaration renders as a declaration of the underlying
struct type if and only if each field can be written. -/
theorem C39_struct_renders_iff (env : Env) {h h' : Heap} {n : GoString} {fields : List Ptr} {p : Ptr}
    (hf : h.types h.next = none) (hn : newStructTypeSpec h n fields = .ok (p, h'))
    (hok : ∀ q ∈ fields, FieldSound h' q) (hi : isIdent n = true) :
    ∃ ts, h'.types p = some ts ∧
      (RendersAs env h' p ⟨n, false, ts.underlying.syntax⟩ ↔ ∀ q ∈ fields, FieldOk h' q) := by
  obtain ⟨ts, fs, h1, h2, h3, h4, h5, h6, hl⟩ := C39_struct hf hn
  refine ⟨ts, h1, ?_⟩
  cases h6 with
  | struct h7 h8 =>
    rw [h4] at h7
    obtain ⟨m1, m2⟩ := fieldsStand_of_sound h7 hok
    have hm : StandsType h' p ⟨n, false, ts.underlying.syntax⟩ :=
      ⟨ts, h1, by rw [h2]; exact hi, h2.symm, h3.symm, by rw [h5]; exact .struct h5 (by rw [h4]; exact m1)⟩
    rw [hm.renders_iff]
    constructor
    · rintro ⟨ts', h9, -, -, -, hb⟩
      rw [h1] at h9; cases h9
      rw [h5] at hb
      have hb := (bodyOf_struct_iff h5).1 hb
      rw [h4] at hb
      exact m2 hb
    · intro ho
      refine ⟨ts, h1, by rw [h2]; exact hi, h2.symm, h3.symm, ?_⟩
      rw [h5]
      refine .struct h5 ?_
      rw [h4]
      exact fieldsOf_of_ok h7 ho
  | other h7 => simp [TypeName.isBlock] at h7

theorem elemsOf_iff {h : Heap} {es : List IfaceElem} {l : List (GoElem SynName)}
    (he : List.Forall₂ (ElemStands h) es l) : ElemsOf h es l ↔
      ∀ q m, .method q ∈ es → h.methods q = some m → m.signature.unproblematic = true := by
  induction he with
  | nil => exact ⟨fun _ _ _ hq => by simp at hq, fun _ => .nil⟩
  | @cons e g es l h1 _ ih =>
    constructor
    · intro ho q m hq hm
      cases ho with
      | cons h2 h3 =>
        rcases List.mem_cons.1 hq with rfl | hq
        · cases h2 with
          | method h4 _ _ _ h5 => rw [hm] at h4; cases h4; exact h5
        · exact ih.1 h3 q m hq hm
    · intro ho
      refine .cons ?_ (ih.2 fun q m hq => ho q m (by simp [hq]))
      cases h1 with
      | embed h2 h3 => exact .embed h2 h3
      | method h2 h3 h4 h5 => exact .method h2 h3 h4 h5 (ho _ _ (by simp) h2)

/-- C39, exactly, for `NewInterfaceTypeSpec`: its declaration renders as an interface type with the given
elements, in order, if and only if the signatures of its methods contain neither of the two forms that
rendering gets wrong. -/
theorem C39_interface_renders_iff (env : Env) {h h' : Heap} {n : GoString} {elems : List IfaceElem} {p : Ptr}
    {l : List (GoElem SynName)} (hf : h.types h.next = none)
    (hn : newInterfaceTypeSpec h n elems = .ok (p, h')) (hel : List.Forall₂ (ElemStands h') elems l)
    (hi : isIdent n = true) : RendersAs env h' p ⟨n, false, .iface l⟩ ↔
      ∀ q m, .method q ∈ elems → h'.methods q = some m → m.signature.unproblematic = true := by
  obtain ⟨ts, es, ms, h1, h2, h3, h4, h5, h6, hl⟩ := C39_interface hf hn
  have hm : StandsType h' p ⟨n, false, .iface l⟩ :=
    ⟨ts, h1, by rw [h2]; exact hi, h2.symm, h3.symm, .iface h5 (by rw [h4]; exact hel)⟩
  rw [hm.renders_iff, ← elemsOf_iff hel]
  constructor
  · rintro ⟨ts', h9, -, -, -, hb⟩
    rw [h1] at h9; cases h9
    have hb := (bodyOf_iface_iff h5).1 hb
    rwa [h4] at hb
  · intro ho
    exact ⟨ts, h1, by rw [h2]; exact hi, h2.symm, h3.symm, .iface h5 (by rw [h4]; exact ho)⟩

/-! ## C40 -/

theorem parse_struct_around_iff {s : GoString} {g : GoField SynName} {good : Prop} (hl : FieldX s g good) :
    parseGoTypeDecl (structAround s) = some (.single ⟨b! "T", false, .struct [g]⟩) ↔ good := by
  have h1 := typeTextX_struct ((fieldsX_cons hl fieldsX_nil).congr (by simp : good ∧ True ↔ good))
  rw [List.append_nil] at h1
  obtain ⟨ls, h3, h4, h5⟩ := typeSpecX_text (n := b! "T") h1 (by decide) false
  refine parse_of_toks_iff (ts := .kw .kType :: .ident (b! "T") :: ls) ?_ ?_ ?_
  · have := Toks.before (b := false) (b' := false)
      (s := b! "type ") (ts := [.kw .kType]) (by
        intro rest tl hr
        exact Lex.kw (w := b! "type") (by decide) (delim_cons (by decide)) hr.space) rfl (h3 false)
    simpa [structAround] using this
  · intro hg f hf
    have := h4 hg f [] (by simp at hf; omega)
    simp only [List.cons_append]
    rw [parseTypeDecl, this]
    · rfl
    · simp
  · intro f r hf hp
    simp only [List.cons_append] at hp
    rw [parseTypeDecl] at hp
    · obtain ⟨l, hl, he⟩ := of_map hp
      cases he
      exact h5 f [] _ r (by simp at hf; omega) hl rfl
    · simp

/-- C40, exactly: a field is rendered with its name, its type and its tag if and only if its type can be
written and either is written on one line or the field has no tag. -/
theorem C40_tag_iff (env : Env) (h : Heap) (fuel : Nat) {F : FieldSpec} {t : TypeName}
    (hF : F.type = .name t) (hv : t.valid = true) (hw : t.wellNamed = true)
    (hi : F.name = [] ∧ t.embeddable = true ∨ isIdent F.name = true) :
    ∃ s, F.text env h (writeUnderlying env h fuel) = .ok s ∧
      (parseGoTypeDecl (structAround s)
        = some (.single ⟨b! "T", false, .struct [.mk (optName F.name) t.syntax (optName F.tag)]⟩) ↔
        t.multiline = true ∧ (t.isBlock = true → F.tag = [])) := by
  obtain ⟨n, s, hs, hl⟩ := fieldX_text (env := env) (FieldStands.type (h := h) hF hv hw hi)
  refine ⟨s, ?_, by rw [parse_struct_around_iff hl, fieldOf_name_iff hF hv hw hi]⟩
  rw [← hs (max n fuel) (by omega), FieldSpec.text, FieldSpec.text, hF]
  rfl

/-- C40, exactly, for a field whose type is an unnamed spec: it is rendered with its name, its type and its
tag if and only if the body of the spec can be written and the field has no tag. -/
theorem C40_tag_unnamed_iff (env : Env) (h : Heap) {F : FieldSpec} {q : Ptr} {ts : TypeSpec} {t : SynType}
    (hF : F.type = .spec q) (hq : h.types q = some ts) (h0 : ts.name = []) (hb : BodyStands h ts t)
    (hi : isIdent F.name = true) :
    ∃ n s, (∀ fuel, n ≤ fuel → F.text env h (writeUnderlying env h fuel) = .ok s) ∧
      (parseGoTypeDecl (structAround s)
        = some (.single ⟨b! "T", false, .struct [.mk (some F.name) t (optName F.tag)]⟩) ↔
        BodyOf h ts t ∧ F.tag = []) := by
  obtain ⟨n, s, hs, hl⟩ := fieldX_text (env := env) (FieldStands.unnamed hF hq h0 hb hi)
  exact ⟨n, s, hs, by rw [parse_struct_around_iff hl, fieldOf_unnamed_iff hF hq h0 hi]⟩

/-- `struct { A interface { io.Reader } `x` }` is a type that cannot be written; without tag it can. -/
example : (TypeName.struct [⟨b! "A", .interface [] [⟨⟨b! "io", b! "io"⟩, b! "Reader"⟩], b! "x"⟩]).multiline = false ∧
    (TypeName.struct [⟨b! "A", .interface [] [⟨⟨b! "io", b! "io"⟩, b! "Reader"⟩], []⟩]).multiline = true ∧
    (TypeName.struct [⟨b! "A", .ptr (.interface [] [⟨⟨b! "io", b! "io"⟩, b! "Reader"⟩]), b! "x"⟩]).multiline = true := by
  decide
example (env : Env) (h : Heap) : ¬ ∃ p h', newTypeSpec h (b! "T") (.name (.struct [⟨b! "A",
      .interface [] [⟨⟨b! "io", b! "io"⟩, b! "Reader"⟩], b! "x"⟩])) = .ok (p, h') ∧
    RendersAs env h' p ⟨b! "T", false, .struct [.mk (some (b! "A"))
      (.iface [.embed (some (b! "io"), b! "Reader")]) (some (b! "x"))]⟩ := by
  rintro ⟨p, h', hn, hr⟩
  have := (C39_newTypeSpec_renders_iff env hn (by decide) (by decide) (by decide)).1 hr
  revert this
  decide

end Gopoet
