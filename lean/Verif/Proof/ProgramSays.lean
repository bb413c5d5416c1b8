import Verif.Proof.ProgramMentions
import Verif.Props.Package
import Mathlib.Tactic.ByContra
/-! What a program says about an element of a file is what the element is meant to declare. -/

namespace Gopoet

theorem Heap.fresh_empty : Heap.Fresh {} := by
  constructor <;> intros <;> rfl

theorem build_append : ∀ (a b : List BuildCall) (h : Heap), build (a ++ b) h = (build a h).bind (build b)
  | [], _, _ => rfl
  | c :: a, b, h => by
    simp only [List.cons_append, build]
    cases c.exec h with
    | ok g => exact build_append a b g
    | panic => rfl
    | hang => rfl

theorem Made.exec {cs : List BuildCall} {c : BuildCall} {g h : Heap} {post : List BuildCall} (hb : build cs {} = .ok h)
    (hm : Made cs c g post) : ∃ g1, c.exec g = .ok g1 ∧ build post g1 = .ok h ∧ g.Fresh ∧ g1.Fresh ∧ g.next ≤ g1.next ∧
      Built post g1 h := by
  obtain ⟨pre, rfl, hg⟩ := hm
  rw [build_append, hg] at hb
  replace hb : (c.exec g).bind (build post) = .ok h := hb
  obtain ⟨g1, h1, hb⟩ := bind_eq_ok hb
  have hf := (build_built Heap.fresh_empty hg).fresh
  have s := BuildCall.step hf h1
  exact ⟨g1, h1, hb, hf, s.fresh, s.next, build_built s.fresh hb⟩

theorem Made.append {cs : List BuildCall} {c : BuildCall} {g : Heap} {post : List BuildCall} (hm : Made cs c g post)
    (l : List BuildCall) : Made (cs ++ l) c g (post ++ l) := by
  obtain ⟨pre, rfl, hg⟩ := hm
  exact ⟨pre, by simp, hg⟩

/-- Where a call has made something, no other call has. -/
theorem Made.same {cs : List BuildCall} {c c' : BuildCall} {g g' g1 g1' h : Heap} {post post' : List BuildCall} {q : Ptr}
    (hb : build cs {} = .ok h) (hm : Made cs c g post) (hm' : Made cs c' g' post') (hc : c.exec g = .ok g1)
    (hc' : c'.exec g' = .ok g1') (h1 : g.next ≤ q) (h2 : q < g1.next) (h3 : g'.next ≤ q) (h4 : q < g1'.next) :
    c = c' ∧ post = post' := by
  obtain ⟨pre, rfl, hg⟩ := hm
  obtain ⟨pre', he, hg'⟩ := hm'
  rcases List.append_eq_append_iff.1 he with ⟨x, h5, h6⟩ | ⟨x, h5, h6⟩
  · cases x with
    | nil => cases h6; exact ⟨rfl, rfl⟩
    | cons y x =>
      cases h6
      rw [h5, build_append, hg] at hg'
      replace hg' : (c.exec g).bind (build x) = .ok g' := hg'
      obtain ⟨g2, h7, hg'⟩ := bind_eq_ok hg'
      rw [hc] at h7; cases h7
      have hf := (BuildCall.step (build_built Heap.fresh_empty hg).fresh hc).fresh
      exact absurd (Nat.le_trans (build_built hf hg').next h3) (Nat.not_le.2 h2)
  · cases x with
    | nil => cases h6; exact ⟨rfl, rfl⟩
    | cons y x =>
      cases h6
      rw [h5, build_append, hg'] at hg
      replace hg : (c'.exec g').bind (build x) = .ok g := hg
      obtain ⟨g2, h7, hg⟩ := bind_eq_ok hg
      rw [hc'] at h7; cases h7
      have hf := (BuildCall.step (build_built Heap.fresh_empty hg').fresh hc').fresh
      exact absurd (Nat.le_trans (build_built hf hg).next h1) (Nat.not_le.2 h4)

theorem made_prefix {cs : List BuildCall} {h : Heap} (hb : build cs {} = .ok h) {pre post : List BuildCall}
    (he : cs = pre ++ post) : ∃ g, build pre {} = .ok g := by
  rw [he, build_append] at hb
  obtain ⟨g, h1, _⟩ := bind_eq_ok hb
  exact ⟨g, h1⟩

/-- Calls after the one that made something with `NewTypeSpec` do not set a tag of it. -/
theorem InOrder.no_tag {cs : List BuildCall} (ho : InOrder cs) {h : Heap} (hb : build cs {} = .ok h) {c : BuildCall}
    {g g1 : Heap} {post : List BuildCall} (hm : Made cs c g post) (hc : c.exec g = .ok g1)
    (hn : ∀ n t, c ≠ .newField n t) {q : Ptr} (h1 : g.next ≤ q) (h2 : q < g1.next) :
    post.filterMap (·.tag? q) = [] := by
  rw [List.filterMap_eq_nil_iff]
  intro d hd
  cases d with
  | setTag q' tag =>
    by_cases hq : q' = q
    · exfalso
      subst hq
      obtain ⟨a, b, rfl⟩ := List.append_of_mem hd
      obtain ⟨pre, rfl, hg⟩ := hm
      obtain ⟨⟨n, t, g', l, h3, h4⟩, -⟩ := ho.tags (pre ++ c :: a) q' tag b (by simp)
      obtain ⟨k, hk⟩ := made_prefix hb (pre := pre ++ c :: a) (post := .setTag q' tag :: b) (by simp)
      obtain ⟨g1', h5, -, -, -, -, -⟩ := h3.exec hk
      have h6 : q' < g1'.next := by cases h5; rw [← h4]; exact Nat.lt_succ_self _
      exact hn n t (Made.same hk ⟨pre, rfl, hg⟩ h3 hc h5 h1 h2 (Nat.le_of_eq h4) h6).1
    · simp [BuildCall.tag?, hq]
  | _ => rfl

theorem InOrder.no_sig {cs : List BuildCall} (ho : InOrder cs) {h : Heap} (hb : build cs {} = .ok h) {c : BuildCall}
    {g g1 : Heap} {post : List BuildCall} (hm : Made cs c g post) (hc : c.exec g = .ok g1)
    (hn : ∀ n, c ≠ .newInterfaceMethod n) {q : Ptr} (h1 : g.next ≤ q) (h2 : q < g1.next) :
    post.filterMap (·.sig? (.method q)) = [] := by
  rw [List.filterMap_eq_nil_iff]
  intro d hd
  cases d with
  | methodSig q' s =>
    by_cases hq : q' = q
    · exfalso
      subst hq
      obtain ⟨a, b, rfl⟩ := List.append_of_mem hd
      obtain ⟨pre, rfl, hg⟩ := hm
      obtain ⟨⟨n, g', l, h3, h4⟩, -⟩ := ho.sigs (pre ++ c :: a) q' s b (by simp)
      obtain ⟨k, hk⟩ := made_prefix hb (pre := pre ++ c :: a) (post := .methodSig q' s :: b) (by simp)
      obtain ⟨g1', h5, -, -, -, -, -⟩ := h3.exec hk
      have h6 : q' < g1'.next := by cases h5; rw [← h4]; exact Nat.lt_succ_self _
      exact hn n (Made.same hk ⟨pre, rfl, hg⟩ h3 hc h5 h1 h2 (Nat.le_of_eq h4) h6).1
    · simp [BuildCall.sig?, hq]
  | _ => simp [BuildCall.sig?]

theorem InOrder.struct_tag {cs : List BuildCall} (ho : InOrder cs) {n : GoString} {fs : List Ptr}
    {g : Heap} {post : List BuildCall} (hm : Made cs (.newStructTypeSpec n fs) g post) {q : Ptr} (hq : q ∈ fs) :
    post.filterMap (·.tag? q) = [] := by
  rw [List.filterMap_eq_nil_iff]
  intro d hd
  cases d with
  | setTag q' tag =>
    by_cases he : q' = q
    · exfalso
      subst he
      obtain ⟨a, b, rfl⟩ := List.append_of_mem hd
      obtain ⟨pre, rfl, hg⟩ := hm
      exact (ho.tags (pre ++ .newStructTypeSpec n fs :: a) q' tag b (by simp)).2 n fs (by simp) hq
    · simp [BuildCall.tag?, he]
  | _ => rfl

theorem InOrder.iface_sig {cs : List BuildCall} (ho : InOrder cs) {n : GoString} {es : List IfaceElem}
    {g : Heap} {post : List BuildCall} (hm : Made cs (.newInterfaceTypeSpec n es) g post) {q : Ptr} (hq : .method q ∈ es) :
    post.filterMap (·.sig? (.method q)) = [] := by
  rw [List.filterMap_eq_nil_iff]
  intro d hd
  cases d with
  | methodSig q' s =>
    by_cases he : q' = q
    · exfalso
      subst he
      obtain ⟨a, b, rfl⟩ := List.append_of_mem hd
      obtain ⟨pre, rfl, hg⟩ := hm
      exact (ho.sigs (pre ++ .newInterfaceTypeSpec n es :: a) q' s b (by simp)).2 n es (by simp) hq
    · simp [BuildCall.sig?, he]
  | _ => simp [BuildCall.sig?]

/-! ### Fields -/

theorem fieldMeans_of {sc : FileScope} {h : Heap} {F : FieldSpec} {t : TypeName} (ht : F.type = .name t)
    (hd : FieldDeclarable sc F.name t F.tag) :
    FieldMeans sc h F (.mk (optName F.name) (t.meaning sc.symbolMeaning) (optName F.tag)) := by
  obtain ⟨⟨hv, hw, hm, hk⟩, hn, hb⟩ := hd
  cases hbt : t.isBlock with
  | false => exact .line ht hbt (onLine_of_multiline hbt hv hw hm) hn hk
  | true =>
    have ht0 := hb hbt
    have hi : isIdent F.name = true := by
      rcases hn with ⟨_, he⟩ | hi
      · cases t <;> simp [TypeName.isBlock, TypeName.embeddable] at hbt he
      · exact hi
    have h0 : F.name ≠ [] := by intro e; rw [e] at hi; simp [isIdent] at hi
    have := FieldMeans.block (sc := sc) (h := h) ht hbt hv hw hm hi ht0 hk
    simpa [optName, h0, ht0] using this

/-! ### Elements of interfaces -/

theorem Signature.after_built (o : Obj) (cs : List BuildCall) :
    Signature.after ⟨[], [], false⟩ (cs.filterMap (·.sig? o)) = sigBuilt o cs := by
  simp [Signature.after, sigBuilt]

theorem SaysElem.means {sc : FileScope} {cs : List BuildCall} {h : Heap} (hb : build cs {} = .ok h) {e : IfaceElem}
    {G : GoElem TypeIdent} (hs : SaysElem sc cs e G) : ElemMeans sc h e G := by
  cases hs with
  | @embed s g post hm hw hk =>
    obtain ⟨g1, h1, h2, h3, h4, h5, h6⟩ := hm.exec hb
    cases h1
    obtain ⟨par, h7⟩ := h6.embeds g.next { type := s } (upd_same _ _ _)
    exact ElemMeans.embed h7 hw hk
  | @method n g post hm hi hd =>
    obtain ⟨g1, h1, h2, h3, h4, h5, h6⟩ := hm.exec hb
    cases h1
    obtain ⟨par, h7⟩ := h6.methods g.next { name := n, signature := ⟨[], [], false⟩ } (upd_same _ _ _)
    rw [Signature.after_built] at h7
    exact ElemMeans.method h7 hi hd.1 hd.2.1 hd.2.2.1 hd.2.2.2

/-! ### Types made from a type -/

/-- The field, at an address from `lo` on, is as given in a type. -/
def LitField (h : Heap) (lo : Ptr) (q : Ptr) (f : FieldType) : Prop :=
  lo ≤ q ∧ ∃ F, h.fields q = some F ∧ F.name = f.name ∧ F.tag = f.tag ∧ F.type = fieldRef f.type

/-- The method, at an address from `lo` on, is as given in a type. -/
def LitMethod (h : Heap) (lo : Ptr) (e : IfaceElem) (m : MethodType) : Prop :=
  ∃ q M, lo ≤ q ∧ e = .method q ∧ h.methods q = some M ∧ M.name = m.name ∧ M.signature = m.signature

/-- The body of a spec made from a type. -/
inductive LitBody (h : Heap) (lo : Ptr) (ts : TypeSpec) : TypeName → Prop
  | struct {fs} : List.Forall₂ (LitField h lo) ts.structBody fs → ts.interfaceBody = [] → LitBody h lo ts (.struct fs)
  | iface {ms es l l'} : ts.structBody = [] → ts.interfaceBody = l ++ l' → List.Forall₂ (EmbedIs h) l es →
      List.Forall₂ (LitMethod h lo) l' ms → LitBody h lo ts (.interface ms es)
  | other {t} : t.isBlock = false → ts.structBody = [] → ts.interfaceBody = [] → LitBody h lo ts t

theorem litBody_newTypeSpec {h h' : Heap} {n : GoString} {t : TypeName} {p : Ptr} (hn : newTypeSpec h n (.name t) = .ok (p, h')) :
    p = h.next ∧ ∃ ts, h'.types p = some ts ∧ ts.name = n ∧ ts.isAlias = false ∧ ts.underlying = t ∧ LitBody h' h.next ts t := by
  have plain : ∀ u : TypeName, u.isBlock = false →
      Outcome.ok (h.allocType { name := n, underlying := u }) = .ok (p, h') →
      p = h.next ∧ ∃ ts, h'.types p = some ts ∧ ts.name = n ∧ ts.isAlias = false ∧ ts.underlying = u ∧ LitBody h' h.next ts u := by
    intro u hu he
    cases he
    exact ⟨rfl, _, upd_same .., rfl, rfl, rfl, .other hu rfl rfl⟩
  cases t with
  | nil => simp [newTypeSpec] at hn
  | struct fs =>
    obtain ⟨_, h4⟩ := allocFields_spec fs { h with next := h.next + 1 } h.next
    cases hn
    refine ⟨rfl, _, upd_same .., rfl, rfl, rfl, .struct (h4.imp fun q f hq => ⟨Nat.le_of_succ_le hq.1, _, hq.2, rfl, rfl, rfl⟩) rfl⟩
  | interface ms es =>
    obtain ⟨_, h4⟩ := allocEmbeds_spec es { h with next := h.next + 1 } h.next
    obtain ⟨⟨embeds, next, h5, h6, -⟩, -⟩ := allocEmbeds_spec es { h with next := h.next + 1 } h.next
    obtain ⟨⟨methods, next', h7, -, -⟩, h8⟩ := allocMethods_spec ms (allocEmbeds { h with next := h.next + 1 } h.next es).2 h.next
    cases hn
    refine ⟨rfl, _, upd_same .., rfl, rfl, rfl, .iface (l := (allocEmbeds { h with next := h.next + 1 } h.next es).1)
      (l' := (allocMethods (allocEmbeds { h with next := h.next + 1 } h.next es).2 h.next ms).1) rfl rfl
      (h4.imp fun e s hq => ?_) (h8.imp fun e m hq => ?_)⟩
    · obtain ⟨q, h9, h10, h11⟩ := hq
      refine ⟨q, { type := s, parent := some h.next }, h10, ?_, rfl⟩
      rw [← h11]
      simp only
      rw [h7]
    · obtain ⟨q, h9, h10, h11⟩ := hq
      rw [h5] at h9
      exact ⟨q, _, Nat.le_of_succ_le (Nat.le_trans h6 h9), h10, h11, rfl, rfl⟩
  | _ => exact plain _ rfl hn

/-- It stays so, if tags and signatures are not changed. -/
theorem LitBody.built {g1 h : Heap} {lo : Ptr} {ts : TypeSpec} {t : TypeName} {post : List BuildCall} (hl : LitBody g1 lo ts t)
    (hB : Built post g1 h) (htag : ∀ q, lo ≤ q → q < g1.next → post.filterMap (·.tag? q) = [])
    (hsig : ∀ q, lo ≤ q → q < g1.next → post.filterMap (·.sig? (.method q)) = []) (hf : g1.Fresh) : LitBody h lo ts t := by
  cases hl with
  | struct h1 h2 =>
    refine .struct (h1.imp ?_) h2
    rintro q f ⟨h3, F, h4, h5, h6, h7⟩
    obtain ⟨par, h8⟩ := hB.fields q F h4
    refine ⟨h3, _, h8, h5, ?_, h7⟩
    simp only [htag q h3 (lt_next hf.fields h4)]
    exact h6
  | iface h1 h2 h3 h4 =>
    refine .iface h1 h2 (h3.imp ?_) (h4.imp ?_)
    · rintro e s ⟨q, E, rfl, h5, h6⟩
      obtain ⟨par, h7⟩ := hB.embeds q E h5
      exact ⟨q, _, rfl, h7, h6⟩
    · rintro e m ⟨q, M, h5, rfl, h6, h7, h8⟩
      obtain ⟨par, h9⟩ := hB.methods q M h6
      refine ⟨q, _, h5, rfl, h9, h7, ?_⟩
      simp only [hsig q h5 (lt_next hf.methods h6), Signature.after_nil]
      exact h8
  | other h1 h2 h3 => exact .other h1 h2 h3

theorem LitBody.lists {h : Heap} {lo : Ptr} {ts : TypeSpec} {t : TypeName} (hl : LitBody h lo ts t) : BodyLists h ts t := by
  cases hl with
  | struct h1 h2 =>
    refine .struct (h1.imp ?_) h2
    rintro q f ⟨_, F, h4, h5, h6, h7⟩
    exact ⟨F, h4, h5, h6, by rw [h7]; exact fieldRef_isType h f.type⟩
  | @iface ms es l l' h1 h2 h3 h4 =>
    have e1 := filter_embeds (P := EmbedIs h) (by rintro e s ⟨q, E, rfl, -, -⟩; rfl) h3
    have e2 := filter_methods (P := LitMethod h lo) (by rintro e m ⟨q, M, _, rfl, -⟩; rfl) h4
    refine .iface h1 ?_ ?_
    · rw [h2, List.filter_append, e1.1, e2.1, List.append_nil]; exact h3
    · rw [h2, List.filter_append, e1.2, e2.2, List.nil_append]
      refine h4.imp ?_
      rintro e m ⟨q, M, _, rfl, h6, h7, h8⟩
      exact ⟨q, M, rfl, h6, h7, h8⟩
  | other h1 h2 h3 => exact .other h1 h2 h3

theorem knows_sub {sc : FileScope} {ss ss' : List Symbol} {ks ks' : List ReflectKind} (hk : sc.Knows ss ks)
    (h1 : ∀ s ∈ ss', s ∈ ss) (h2 : ∀ k ∈ ks', k ∈ ks) : sc.Knows ss' ks' where
  own s hs := hk.own s (h1 s hs)
  bare s hs := hk.bare s (h1 s hs)
  other s hs := hk.other s (h1 s hs)
  basics k hk' := hk.basics k (h2 k hk')

theorem fieldsMean_lit {sc : FileScope} {h : Heap} {lo : Ptr} {ps : List Ptr} {fs : List FieldType}
    (hp : List.Forall₂ (LitField h lo) ps fs) (hv : validFields fs = true) (hw : wellNamedFields fs = true)
    (hm : multilineFields fs = true) (hk : sc.Knows (symbolsFields fs) (basicsFields fs)) :
    FieldsMean sc h ps (meaningFields sc.symbolMeaning fs) := by
  induction hp with
  | nil => exact .nil
  | @cons p f ps fs h1 _ ih =>
    obtain ⟨n, t, tag⟩ := f
    simp only [validFields, wellNamedFields, multilineFields, Bool.and_eq_true, Bool.or_eq_true,
      beq_iff_eq, Bool.not_eq_true'] at hv hw hm
    obtain ⟨_, F, h2, rfl, rfl, h3⟩ := h1
    rw [fieldRef_name hv.1] at h3
    refine .cons h2 (fieldMeans_of h3 ⟨⟨hv.1, hw.1.2, hm.1.2, ?_⟩, hw.1.1, fun hb => hm.1.1.resolve_left (by simp [hb])⟩)
      (ih hv.2 hw.2 hm.2 ?_)
    · exact knows_sub hk (fun s hs => by simp [symbolsFields, hs]) (fun s hs => by simp [basicsFields, hs])
    · exact knows_sub hk (fun s hs => by simp [symbolsFields, hs]) (fun s hs => by simp [basicsFields, hs])

theorem elemsMean_append {sc : FileScope} {h : Heap} {es es' : List IfaceElem} {l l' : List (GoElem TypeIdent)}
    (h1 : ElemsMean sc h es l) (h2 : ElemsMean sc h es' l') : ElemsMean sc h (es ++ es') (l ++ l') := by
  induction h1 with
  | nil => exact h2
  | cons h _ ih => exact .cons h ih

theorem elemsMean_embeds {sc : FileScope} {h : Heap} {ps : List IfaceElem} {es : List Symbol}
    (hp : List.Forall₂ (EmbedIs h) ps es) (hw : es.all Symbol.wellNamed = true) (hk : sc.Knows es []) :
    ElemsMean sc h ps (es.map fun s => .embed (sc.symbolMeaning s)) := by
  induction hp with
  | nil => exact .nil
  | cons h1 _ ih =>
    simp only [List.all_cons, Bool.and_eq_true] at hw
    obtain ⟨p, E, rfl, h2, rfl⟩ := h1
    exact .cons (.embed h2 hw.1 (knows_sub hk (by simp) (by simp))) (ih hw.2 (knows_sub hk (by simp +contextual) (by simp)))

theorem elemsMean_methods {sc : FileScope} {h : Heap} {lo : Ptr} {ps : List IfaceElem} {ms : List MethodType}
    (hp : List.Forall₂ (LitMethod h lo) ps ms) (hv : validMethods ms = true)
    (hw : wellNamedMethods ms = true) (hu : unproblematicMethods ms = true)
    (hk : sc.Knows (symbolsMethods ms) (basicsMethods ms)) :
    ElemsMean sc h ps (meaningMethods sc.symbolMeaning ms) := by
  induction hp with
  | nil => exact .nil
  | @cons e m ps ms h1 _ ih =>
    obtain ⟨n, s⟩ := m
    simp only [validMethods, wellNamedMethods, unproblematicMethods, Bool.and_eq_true] at hv hw hu
    obtain ⟨p, M, _, rfl, h2, rfl, rfl⟩ := h1
    refine .cons (.method h2 hw.1.1 hv.1 hw.1.2 hu.1 ?_) (ih hv.2 hw.2 hu.2 ?_)
    · exact knows_sub hk (fun s hs => by simp [symbolsMethods, hs]) (fun s hs => by simp [basicsMethods, hs])
    · exact knows_sub hk (fun s hs => by simp [symbolsMethods, hs]) (fun s hs => by simp [basicsMethods, hs])

theorem LitBody.means {sc : FileScope} {h : Heap} {lo : Ptr} {ts : TypeSpec} {t : TypeName} (hl : LitBody h lo ts t)
    (hu : ts.underlying = t) (hd : t.Declarable sc) : BodyMeans sc h ts (t.meaning sc.symbolMeaning) := by
  obtain ⟨hv, hw, hm, hk⟩ := hd
  cases hl with
  | struct h1 h2 => exact .struct hu (by rw [hu]; exact hv) (fieldsMean_lit h1 hv hw hm hk)
  | iface h1 h2 h3 h4 =>
    refine .iface hu (by rw [hu]; exact hv) ?_
    rw [h2]
    simp only [TypeName.wellNamed, Bool.and_eq_true] at hw
    refine elemsMean_append (elemsMean_embeds h3 hw.2 ?_) (elemsMean_methods h4 hv hw.1 hm ?_)
    · exact knows_sub hk (fun s hs => by simp [TypeName.symbols, hs]) (by simp)
    · exact knows_sub hk (fun s hs => by simp [TypeName.symbols, hs]) (fun s hs => by simp [TypeName.basics, hs])
  | other h1 h2 h3 =>
    subst hu
    exact .other h1 (onLine_of_multiline h1 hv hw hm) hk

theorem LitBody.noSpec {h : Heap} {lo : Ptr} {ts : TypeSpec} {t : TypeName} (hl : LitBody h lo ts t) :
    ∀ q ∈ ts.structBody, ∀ F, h.fields q = some F → ∀ r, F.type ≠ .spec r := by
  intro q hq F hF r
  cases hl with
  | struct h1 _ =>
    obtain ⟨f, _, _, F', h2, _, _, h3⟩ := forall₂_mem_left h1 hq
    rw [hF] at h2; cases h2
    rw [h3]
    cases f.type <;> simp [fieldRef]
  | iface h1 => rw [h1] at hq; cases hq
  | other _ h1 => rw [h1] at hq; cases hq

/-! ### Specs -/

/-- The type specs without name that are in the body of the spec have bodies that list their types, and so have those
in their bodies. -/
inductive Listed (h : Heap) : TypeSpec → Prop
  | mk {ts} : BodyLists h ts ts.underlying → (∀ q ∈ ts.structBody, ∀ F, h.fields q = some F → ∀ r, F.type = .spec r →
      ∀ us, h.types r = some us → us.name = []) → (∀ q ∈ ts.structBody, ∀ F, h.fields q = some F → ∀ r, F.type = .spec r →
      ∀ us, h.types r = some us → Listed h us) → Listed h ts

/-- What is found out about a type spec. -/
def SpecSaid (sc : FileScope) (h : Heap) (p : Ptr) (n : GoString) (al : Bool) (t : GoType TypeIdent) : Prop :=
  ∃ ts, h.types p = some ts ∧ ts.name = n ∧ ts.isAlias = al ∧ BodyMeans sc h ts t ∧ ts.underlying.valid = true ∧ Listed h ts

/-- What is found out about a declared type spec. -/
structure TypeSaid (sc : FileScope) (h : Heap) (p : Ptr) (d : GoString × Bool × GoType TypeIdent) : Prop where
  means : TypeMeans sc h p d
  listed : ∀ ts, h.types p = some ts → Listed h ts

theorem saysType_literal {sc : FileScope} {cs : List BuildCall} {h : Heap} (hb : build cs {} = .ok h) (ho : InOrder cs)
    {c : BuildCall} {g g0 g1 : Heap} {post : List BuildCall} {n : GoString} {t : TypeName} {al : Bool} {p : Ptr}
    (hm : Made cs c g post) (hc : c.exec g = .ok g1) (hc1 : ∀ n t, c ≠ .newField n t) (hc2 : ∀ n, c ≠ .newInterfaceMethod n)
    (hd : t.Declarable sc) (hn : newTypeSpec g n (.name t) = .ok (p, g0))
    (h1 : ∀ ts, g0.types p = some ts → g1.types p = some { ts with isAlias := al })
    (h2 : g1.fields = g0.fields) (h3 : g1.embeds = g0.embeds) (h4 : g1.methods = g0.methods) :
    p = g.next ∧ SpecSaid sc h p n al (t.meaning sc.symbolMeaning) := by
  obtain ⟨g1', h5, h6, h7, h8, h9, h10⟩ := hm.exec hb
  rw [hc] at h5; cases h5
  obtain ⟨rfl, ts, k1, k2, k3, k4, k5⟩ := litBody_newTypeSpec hn
  obtain ⟨par, k6⟩ := h10.types _ _ (h1 ts k1)
  have k5' : LitBody g1 g.next ts t := by
    cases k5 with
    | struct a b => exact .struct (a.imp fun q f ⟨x, F, y, z⟩ => ⟨x, F, by rw [h2]; exact y, z⟩) b
    | iface a b c d =>
      refine .iface a b (c.imp ?_) (d.imp ?_)
      · rintro e s ⟨q, E, x, y, z⟩
        exact ⟨q, E, x, by rw [h3]; exact y, z⟩
      · rintro e s ⟨q, E, x, y, z, w⟩
        exact ⟨q, E, x, y, by rw [h4]; exact z, w⟩
    | other a b c => exact .other a b c
  have k7 := k5'.built h10 (fun q => ho.no_tag hb hm hc hc1) (fun q => ho.no_sig hb hm hc hc2) h8
  have k8 : ∀ ts', h.types g.next = some ts' → ts'.name = n ∧ ts'.isAlias = al ∧ ts'.underlying = t ∧ LitBody h g.next ts' t := by
    intro ts' hts
    rw [k6] at hts; cases hts
    refine ⟨k2, rfl, k4, ?_⟩
    cases k7 with
    | struct a b => exact .struct a b
    | iface a b c d => exact .iface a b c d
    | other a b c => exact .other a b c
  obtain ⟨m1, m2, m3, m4⟩ := k8 _ k6
  have m5 := m4.lists
  rw [← m3] at m5
  refine ⟨rfl, _, k6, m1, m2, m4.means m3 hd, by rw [m3]; exact hd.1, .mk m5 ?_ ?_⟩ <;>
  exact fun q hq F hF r hr => absurd hr (m4.noSpec q hq F hF r)

/-- What is found out about a field. -/
def FieldSaid (sc : FileScope) (h : Heap) (q : Ptr) (G : GoField TypeIdent) : Prop :=
  ∃ F, h.fields q = some F ∧ FieldMeans sc h F G ∧
    ((∃ t, F.type = .name t ∧ t.valid = true) ∨
      ∃ r us, F.type = .spec r ∧ h.types r = some us ∧ us.name = [] ∧ us.underlying.valid = true ∧ Listed h us)

theorem FieldIs.built {g1 h : Heap} {post : List BuildCall} (hB : Built post g1 h) {q : Ptr} {f : FieldType} (hf : FieldIs g1 q f)
    (htag : post.filterMap (·.tag? q) = []) {sc : FileScope} {G : GoField TypeIdent} (hF : FieldSaid sc h q G) :
    FieldIs h q f ∧ f.type.valid = true := by
  obtain ⟨F', h1, h2, h3, h4⟩ := hf
  obtain ⟨F, hF, -, ht⟩ := hF
  obtain ⟨par, h5⟩ := hB.fields q F' h1
  rw [hF] at h5
  cases h5
  simp only at ht
  generalize hu : f.type = u at h4
  rcases ht with ⟨t, ht, hv⟩ | ⟨r, us, ht, hr, hn, hv, -⟩
  · rw [ht] at h4
    cases h4
    refine ⟨⟨_, hF, h2, ?_, ?_⟩, hv⟩
    · simp only [htag]; exact h3
    · simp only [ht, hu]; exact .name
  · rw [ht] at h4
    have key : ∀ ts, g1.types r = some ts → us.name = ts.name ∧ us.underlying = ts.underlying := by
      intro ts hts
      obtain ⟨par, h6⟩ := hB.types r ts hts
      rw [hr] at h6
      cases h6
      exact ⟨rfl, rfl⟩
    cases h4 with
    | named k1 k2 => exact absurd ((key _ k1).1 ▸ hn) k2
    | @unnamed _ ts k1 k2 =>
      rw [← (key _ k1).2] at hu ⊢
      refine ⟨⟨_, hF, h2, ?_, ?_⟩, hv⟩
      · simp only [htag]; exact h3
      · simp only [ht, hu]; exact .unnamed hr hn

theorem fieldsMean_of {sc : FileScope} {h : Heap} {ps : List Ptr} {l : List (GoField TypeIdent)}
    (hp : List.Forall₂ (fun p G => ∃ F, h.fields p = some F ∧ FieldMeans sc h F G) ps l) : FieldsMean sc h ps l := by
  induction hp with
  | nil => exact .nil
  | cons h1 _ ih =>
    obtain ⟨F, h2, h3⟩ := h1
    exact .cons h2 h3 ih

theorem elemsMean_of {sc : FileScope} {h : Heap} {ps : List IfaceElem} {l : List (GoElem TypeIdent)}
    (hp : List.Forall₂ (ElemMeans sc h) ps l) : ElemsMean sc h ps l := by
  induction hp with
  | nil => exact .nil
  | cons h1 _ ih => exact .cons h1 ih

theorem validFields_of {fs : List FieldType} (h : ∀ f ∈ fs, f.type.valid = true) : validFields fs = true := by
  induction fs with
  | nil => rfl
  | cons f fs ih =>
    obtain ⟨n, t, tag⟩ := f
    simp only [validFields, Bool.and_eq_true]
    exact ⟨h ⟨n, t, tag⟩ (.head _), ih fun f hf => h f (.tail _ hf)⟩

theorem validMethods_of {ms : List MethodType} (h : ∀ m ∈ ms, m.signature.valid = true) : validMethods ms = true := by
  induction ms with
  | nil => rfl
  | cons f fs ih =>
    obtain ⟨n, s⟩ := f
    simp only [validMethods, Bool.and_eq_true]
    exact ⟨h ⟨n, s⟩ (.head _), ih fun f hf => h f (.tail _ hf)⟩

theorem forall₂_imp_left {α β : Type} {R S : α → β → Prop} {l : List α} {m : List β} (h : List.Forall₂ R l m)
    (hi : ∀ a ∈ l, ∀ b, R a b → S a b) : List.Forall₂ S l m := by
  induction h with
  | nil => exact .nil
  | cons h1 _ ih => exact .cons (hi _ (.head _) _ h1) (ih fun a ha => hi a (.tail _ ha))

/-- A spec with the same type and the same body. -/
theorem SpecSaid.copy {sc : FileScope} {h : Heap} {q p : Ptr} {m n : GoString} {al al' : Bool} {t : GoType TypeIdent}
    (hs : SpecSaid sc h q m al' t) (hp : ∃ ts, h.types p = some ts ∧ ts.name = n ∧ ts.isAlias = al ∧
      ∀ us, h.types q = some us → ts.underlying = us.underlying ∧ ts.structBody = us.structBody ∧ ts.interfaceBody = us.interfaceBody) :
    SpecSaid sc h p n al t := by
  obtain ⟨us, k1, -, -, k4, k5, k6, k7, k8⟩ := hs
  obtain ⟨ts, h1, h2, h3, h4⟩ := hp
  obtain ⟨e1, e2, e3⟩ := h4 us k1
  refine ⟨ts, h1, h2, h3, ?_, by rw [e1]; exact k5, ⟨?_, by rw [e2]; exact k7, by rw [e2]; exact k8⟩⟩
  · cases k4 with
    | struct a b c => exact .struct (e1.trans a) (by rw [e1]; exact b) (by rw [e2]; exact c)
    | iface a b c => exact .iface (e1.trans a) (by rw [e1]; exact b) (by rw [e3]; exact c)
    | other a b c =>
      rw [← e1] at a b c ⊢
      exact .other a b c
  · rw [e1]
    generalize us.underlying = u at k6
    cases k6 with
    | struct a b => exact .struct (by rw [e2]; exact a) (e3.trans b)
    | iface a b c => exact .iface (e2.trans a) (by rw [e3]; exact b) (by rw [e3]; exact c)
    | other a b c => exact .other a (e2.trans b) (e3.trans c)

/-- What `NewTypeSpec` makes of a spec. -/
theorem newTypeSpec_unnamed {h h' : Heap} {n : GoString} {q p : Ptr} (hn : newTypeSpec h n (.spec q) = .ok (p, h')) :
    ∃ us ts, h.types q = some us ∧ (p, h') = h.allocType ts ∧ ts.name = n ∧ ts.isAlias = false ∧ (us.name = [] →
      ts.underlying = us.underlying ∧ ts.structBody = us.structBody ∧ ts.interfaceBody = us.interfaceBody) := by
  obtain ⟨us, h1, hn⟩ := bind_eq_ok hn
  obtain ⟨u, h2, hn⟩ := bind_eq_ok hn
  refine ⟨us, _, deref_eq_ok h1, (Outcome.ok.inj hn).symm, ?_, ?_, fun h0 => ?_⟩
  · split <;> rfl
  · split <;> rfl
  · rw [TypeSpec.toTypeName, if_pos h0] at h2
    cases h2
    rw [if_pos h0]
    exact ⟨rfl, rfl, rfl⟩

theorem specSaid_copy {sc : FileScope} {g g0 g1 h : Heap} {post : List BuildCall} {n : GoString} {q p : Ptr} {al al' : Bool}
    {t : GoType TypeIdent} (hf : g.Fresh) (hn : newTypeSpec g n (.spec q) = .ok (p, g0))
    (h1 : ∀ ts, g0.types p = some ts → g1.types p = some { ts with isAlias := al }) (h2 : ∀ r, r ≠ p → g1.types r = g0.types r)
    (hB : Built post g1 h) (hs : SpecSaid sc h q [] al' t) : SpecSaid sc h g.next n al t := by
  refine hs.copy ?_
  obtain ⟨vs, j1, j2, -⟩ := hs
  obtain ⟨us, ts, k1, k2, k3, k4, k5⟩ := newTypeSpec_unnamed hn
  cases k2
  have hlt : q ≠ g.next := Nat.ne_of_lt (lt_next hf.types k1)
  obtain ⟨par, m1⟩ := hB.types q us (by
    rw [h2 q hlt]
    exact (upd_ne _ _ hlt).trans k1)
  obtain ⟨par', m2⟩ := hB.types g.next _ (h1 ts (upd_same _ _ _))
  rw [j1] at m1
  cases m1
  refine ⟨_, m2, k3, rfl, fun us' hus => ?_⟩
  rw [j1] at hus
  cases hus
  exact k5 j2

theorem SaysSpec.said {sc : FileScope} {cs : List BuildCall} {h : Heap} (hb : build cs {} = .ok h) (ho : InOrder cs) {p : Ptr}
    {n : GoString} {al : Bool} {t : GoType TypeIdent} (hs : SaysSpec sc cs p n al t) : SpecSaid sc h p n al t := by
  refine SaysSpec.rec (sc := sc) (cs := cs) (motive_1 := fun p G _ => FieldSaid sc h p G)
    (motive_2 := fun ps l _ => List.Forall₂ (FieldSaid sc h) ps l) (motive_3 := fun p n al t _ => SpecSaid sc h p n al t)
    ?field ?unnamed ?nil ?cons ?type ?aliasOf ?struct ?iface ?copy ?copyAlias hs
  all_goals clear hs
  case field =>
    intro n t tag g post hm htag hd
    obtain ⟨g1, h1, h2, h3, h4, h5, h6⟩ := hm.exec hb
    cases h1
    obtain ⟨par, h7⟩ := h6.fields g.next { name := n, type := .name t } (upd_same _ _ _)
    subst htag
    exact ⟨_, h7, fieldMeans_of (F := { name := n, type := .name t, comment := _, tag := _, parent := par }) rfl hd, .inl ⟨t, rfl, hd.1.1⟩⟩
  case unnamed =>
    intro n q al t g post hm htag hi _ hq
    obtain ⟨us, k1, k2, k3, k4, k5, k6⟩ := hq
    obtain ⟨g1, h1, h2, h3, h4, h5, h6⟩ := hm.exec hb
    cases h1
    obtain ⟨par, h7⟩ := h6.fields g.next { name := n, type := .spec q } (upd_same _ _ _)
    exact ⟨_, h7, .unnamed rfl k1 k2 k4 hi htag, .inr ⟨q, us, rfl, k1, k2, k5, k6⟩⟩
  case nil => exact .nil
  case cons =>
    intro _ _ _ _ _ _ h1 h2
    exact .cons h1 h2
  case type =>
    intro n t g post hm hd
    obtain ⟨g1, h1, -⟩ := hm.exec hb
    obtain ⟨q, h2⟩ := built_ok h1
    obtain ⟨rfl, h3⟩ := saysType_literal (al := false) hb ho hm h1 nofun nofun hd h2 (fun ts hts => by
      obtain ⟨_, ts', k1, -, k2, -⟩ := litBody_newTypeSpec h2
      rw [k1] at hts ⊢; cases hts
      rw [← k2]) rfl rfl rfl
    exact h3
  case aliasOf =>
    intro n t g post hm hd
    obtain ⟨g1, h1, -⟩ := hm.exec hb
    obtain ⟨q, h2⟩ := built_ok h1
    obtain ⟨g0, ts, h3, h4, rfl⟩ := C39_alias.1 h2
    obtain ⟨rfl, h3⟩ := saysType_literal (al := true) hb ho hm h1 nofun nofun hd h3 (fun ts' hts => by
      rw [h4] at hts; cases hts
      exact upd_same _ _ _) rfl rfl rfl
    exact h3
  case struct =>
    intro n fs l g post hm _ hl
    obtain ⟨g1, h1, h2, h3, h4, h5, h6⟩ := hm.exec hb
    obtain ⟨q, h7⟩ := built_ok h1
    obtain ⟨-, hq, -⟩ := newStructTypeSpec_grown h3 h7
    obtain ⟨ts, ft, k1, k2, k3, k4, k5, k6, -⟩ := C39_struct (h3.types _ (Nat.le_refl _)) h7
    rw [hq] at k1
    obtain ⟨par, k7⟩ := h6.types _ _ k1
    have hfi : List.Forall₂ (fun q f => FieldIs h q f ∧ f.type.valid = true) fs ft := by
      cases k6 with
      | struct a b =>
        rw [k4] at a
        refine forall₂_imp_left a fun q hq f hf' => ?_
        obtain ⟨G, -, hG⟩ := forall₂_mem_left hl hq
        exact hf'.built h6 (ho.struct_tag hm hq) hG
      | other a => simp [TypeName.isBlock] at a
    have hib : ts.interfaceBody = [] := by
      cases k6 with
      | struct a b => exact b
      | other a => simp [TypeName.isBlock] at a
    have hv : validFields ft = true := validFields_of fun f hf => by
      obtain ⟨q, -, hq⟩ := forall₂_mem_right hfi hf
      exact hq.2
    have nested : ∀ q ∈ ts.structBody, ∀ F, h.fields q = some F → ∀ r, F.type = .spec r → ∀ us, h.types r = some us →
        us.name = [] ∧ Listed h us := by
      intro q hq F hF r hr us hus
      rw [k4] at hq
      obtain ⟨G, -, F', m1, -, m2⟩ := forall₂_mem_left hl hq
      rw [hF] at m1; cases m1
      rcases m2 with ⟨t, m2, -⟩ | ⟨r', us', m2, m3, m4, -, m5⟩
      · rw [hr] at m2; cases m2
      · rw [hr] at m2; cases m2
        rw [hus] at m3; cases m3
        exact ⟨m4, m5⟩
    refine ⟨_, k7, k2, k3, .struct k5 (by rw [k5]; exact hv) ?_, by rw [k5]; exact hv, .mk ?_
      (fun q hq F hF r hr us hus => (nested q hq F hF r hr us hus).1) (fun q hq F hF r hr us hus => (nested q hq F hF r hr us hus).2)⟩
    · simp only [k4]
      exact fieldsMean_of (hl.imp fun q G ⟨F, m1, m2, _⟩ => ⟨F, m1, m2⟩)
    · simp only [k5]
      exact .struct (by simp only [k4]; exact hfi.imp fun _ _ h => h.1) hib
  case iface =>
    intro n es l g post hm hl
    obtain ⟨g1, h1, h2, h3, h4, h5, h6⟩ := hm.exec hb
    obtain ⟨q, h7⟩ := built_ok h1
    obtain ⟨-, hq, -⟩ := newInterfaceTypeSpec_grown h3 h7
    obtain ⟨ts, ss, ms, k1, k2, k3, k4, k5, k6, -⟩ := C39_interface (h3.types _ (Nat.le_refl _)) h7
    rw [hq] at k1
    obtain ⟨par, k7⟩ := h6.types _ _ k1
    have he : List.Forall₂ (ElemMeans sc h) es l := hl.imp fun e G hG => hG.means hb
    have hlists : ts.structBody = [] ∧ List.Forall₂ (EmbedIs h) (es.filter IfaceElem.isEmbed) ss ∧
        List.Forall₂ (MethodIs h) (es.filter (fun e => !e.isEmbed)) ms := by
      cases k6 with
      | iface a b c =>
        rw [k4] at b c
        refine ⟨a, b.imp ?_, forall₂_imp_left c ?_⟩
        · rintro e s ⟨q, E, rfl, m1, m2⟩
          obtain ⟨par, m3⟩ := h6.embeds q E m1
          exact ⟨q, _, rfl, m3, m2⟩
        · rintro e hem m ⟨q, M, rfl, m1, m2, m3⟩
          obtain ⟨par, m4⟩ := h6.methods q M m1
          refine ⟨q, _, rfl, m4, m2, ?_⟩
          simp only [ho.iface_sig hm (List.mem_filter.1 hem).1, Signature.after_nil]
          exact m3
      | other a => simp [TypeName.isBlock] at a
    have hv : validMethods ms = true := validMethods_of fun m hm => by
      obtain ⟨e, he', q, M, rfl, m1, m2, m3⟩ := forall₂_mem_right hlists.2.2 hm
      obtain ⟨G, -, hG⟩ := forall₂_mem_left he (List.mem_filter.1 he').1
      cases hG with
      | method a b c => rw [m1] at a; cases a; rw [← m3]; exact c
    refine ⟨_, k7, k2, k3, .iface k5 (by rw [k5]; exact hv) ?_, by rw [k5]; exact hv, .mk ?_ ?_ ?_⟩
    · simp only [k4]
      exact elemsMean_of he
    · simp only [k5]
      exact .iface hlists.1 (by simp only [k4]; exact hlists.2.1) (by simp only [k4]; exact hlists.2.2)
    · intro q hq
      simp only [hlists.1] at hq
      cases hq
    · intro q hq
      simp only [hlists.1] at hq
      cases hq
  case copy =>
    intro n q al t g post hm _ hq1
    obtain ⟨g1, h1, h2, h3, h4, h5, h6⟩ := hm.exec hb
    obtain ⟨p, h7⟩ := built_ok h1
    exact specSaid_copy h3 h7 (fun ts hts => by
      obtain ⟨us, ts', k1, k2, k3, k4, k5⟩ := newTypeSpec_unnamed h7
      cases k2
      rw [hts, ← k4]
      cases (upd_same _ _ _).symm.trans hts
      rfl) (fun _ _ => rfl) h6 hq1
  case copyAlias =>
    intro n q al t g post hm _ hq1
    obtain ⟨g1, h1, h2, h3, h4, h5, h6⟩ := hm.exec hb
    obtain ⟨p, h7⟩ := built_ok h1
    obtain ⟨g0, ts, h8, h9, rfl⟩ := C39_alias.1 h7
    exact specSaid_copy h3 h8 (fun ts' hts => by
      rw [h9] at hts; cases hts
      exact upd_same _ _ _) (fun r hr => upd_ne _ _ hr) h6 hq1

theorem SaysType.said {sc : FileScope} {cs : List BuildCall} {h : Heap} (hb : build cs {} = .ok h) (ho : InOrder cs) {p : Ptr}
    {d : GoString × Bool × GoType TypeIdent} (hs : SaysType sc cs p d) : TypeSaid sc h p d := by
  obtain ⟨ts, k1, k2, k3, k4, k5, k6⟩ := hs.2.said hb ho
  refine ⟨⟨ts, d.2.2, k1, by rw [k2]; exact hs.1, k4, by rw [k2, k3]⟩, fun ts' hts => ?_⟩
  rw [k1] at hts; cases hts
  exact k6

/-! ### Values -/

theorem inits_isSome {p : Ptr} : ∀ {cs : List BuildCall} {h h' : Heap} (_ : build cs h = .ok h') (o : Option Ptr),
    (lastOr o ((steps cs h).filterMap (init? p))).isSome = lastOr o.isSome (cs.filterMap (·.inits? p)) := by
  intro cs
  induction cs with
  | nil => intro h h' _ o; rfl
  | cons c cs ih =>
    intro h h' hb o
    obtain ⟨g, h1, hb⟩ := bind_eq_ok hb
    rw [steps_cons h1]
    have e : (init? p (c, h)).map Option.isSome = c.inits? p := by
      cases c <;> simp [init?, BuildCall.inits?]
    cases hi : init? p (c, h) with
    | none =>
      rw [hi] at e
      rw [List.filterMap_cons_none hi, List.filterMap_cons_none e.symm]
      exact ih hb o
    | some b =>
      rw [hi] at e
      rw [List.filterMap_cons_some hi, List.filterMap_cons_some e.symm]
      exact ih hb b

theorem lastOr_mem {α : Type} (a : α) : ∀ l : List α, lastOr a l = a ∧ l = [] ∨ lastOr a l ∈ l
  | [] => .inl ⟨rfl, rfl⟩
  | b :: l => by
    rcases lastOr_mem b l with ⟨h, -⟩ | h
    · exact .inr (by rw [lastOr, h]; exact .head _)
    · exact .inr (.tail _ h)

theorem steps_made {c : BuildCall} {g : Heap} : ∀ {cs pre : List BuildCall} {h : Heap}, build pre {} = .ok h → (c, g) ∈ steps cs h →
    ∃ post, Made (pre ++ cs) c g post
  | [], _, _, _, hm => by cases hm
  | d :: cs, pre, h, hb, hm => by
    rw [steps] at hm
    rcases List.mem_cons.1 hm with he | hm
    · cases he
      exact ⟨cs, pre, rfl, hb⟩
    · cases hd : d.exec h with
      | ok h' =>
        rw [hd] at hm
        obtain ⟨post, k⟩ := steps_made (pre := pre ++ [d]) (h := h') (by
          rw [build_append, hb]
          show (d.exec h).bind (build []) = _
          rw [hd]
          rfl) hm
        rw [List.append_assoc] at k
        exact ⟨post, k⟩
      | panic => rw [hd] at hm; cases hm
      | hang => rw [hd] at hm; cases hm

/-- A call makes the block the initializer of something. -/
def InitFrom (cs : List BuildCall) (b : Ptr) : Prop :=
  (∃ q, .setInitializer q (some b) ∈ cs) ∨ ∃ q format args g post, Made cs (.initWith q format args) g post ∧ g.next = b

theorem SaysValue.means {sc : FileScope} {cs : List BuildCall} {h : Heap} (hb : build cs {} = .ok h) {kind : ValueKind} {p : Ptr}
    {d : List GoString × Option (GoType TypeIdent)} (hs : SaysValue sc cs kind p d) : ValueMeans sc h (kind == .const) p d ∧
      ∀ c, h.values p = some c → (∀ r, c.type ≠ .spec r) ∧ ∀ b, c.init = some b → InitFrom cs b := by
  cases hs with
  | @value names t g post hm h1 h2 h3 h4 =>
    obtain ⟨g1, k1, k2, k3, k4, k5, k6⟩ := hm.exec hb
    have hmade := hm
    obtain ⟨pre, rfl, hpre⟩ := hmade
    have hpre1 : build (pre ++ [.newValue kind names]) {} = .ok g1 := by
      rw [build_append, hpre]
      show ((BuildCall.newValue kind names).exec g).bind (build []) = _
      rw [k1]
      rfl
    cases k1
    obtain ⟨par, k7⟩ := k6.values g.next { kind, names } (upd_same _ _ _)
    refine ⟨⟨_, t, k7, h1, h2, h3, ?_, rfl⟩, ?_⟩
    · simp only
      rw [inits_isSome k2]
      cases kind <;> simpa using h4
    · intro c hc
      rw [k7] at hc; cases hc
      refine ⟨fun r => ?_, fun b hi => ?_⟩
      · simp only
        intro e
        have h3 : TypeRef.Means sc (lastOr TypeRef.nil (post.filterMap (·.type? g.next))) t := h3
        rw [e] at h3
        cases h3
      · simp only at hi
        rcases lastOr_mem none ((steps post (newValue g kind names).2).filterMap (init? g.next)) with ⟨e, -⟩ | e
        · rw [hi] at e; cases e
        · rw [hi] at e
          obtain ⟨⟨c, gc⟩, m1, m2⟩ := List.mem_filterMap.1 e
          obtain ⟨l, m3⟩ := steps_made hpre1 m1
          rw [List.append_assoc] at m3
          cases c <;> simp only [init?, reduceCtorEq] at m2
          case setInitializer q b' =>
            split at m2 <;> cases m2
            obtain ⟨l1, m4, -⟩ := m3
            exact .inl ⟨q, by rw [show pre ++ .newValue kind names :: post = _ from m4]; simp⟩
          case initWith q format args =>
            split at m2 <;> cases m2
            exact .inr ⟨q, format, args, gc, l, m3, rfl⟩

/-! ### Declarations -/

/-- What is found out about an element of a file. -/
structure DeclSaid (sc : FileScope) (cs : List BuildCall) (h : Heap) (e : FileElem) (M : DeclMeaning) : Prop where
  intends : Intends sc h e M
  reached : ∀ r, ReachedSpec h e r → ∀ ts, h.types r = some ts → BodyLists h ts ts.underlying ∧
    (ts.name = [] ∨ ∃ p d, e = .types p ∧ h.typeDecls p = some d ∧ r ∈ d.types)
  inits : ∀ p d, e = .values p → h.valueDecls p = some d → ∀ q ∈ d.specs, ∀ c, h.values q = some c → ∀ b, c.init = some b →
    InitFrom cs b

theorem declSaid_types {sc : FileScope} {cs : List BuildCall} {h : Heap} {p : Ptr} {d : TypeDecl} {l : List (GoString × Bool × GoType TypeIdent)}
    (hd : h.typeDecls p = some d) (hn : d.types ≠ []) (hs : List.Forall₂ (TypeSaid sc h) d.types l) :
    DeclSaid sc cs h (.types p) (.types l) where
  intends := .types hd (.inl hn) (hs.imp fun _ _ h => h.means)
  reached := by
    have key : ∀ e r, ReachedSpec h e r → e = .types p → ∀ ts, h.types r = some ts → Listed h ts ∧ (ts.name = [] ∨ r ∈ d.types) := by
      intro e r hr
      induction hr with
      | value => intro e; cases e
      | type h1 h2 =>
        intro e ts hts
        cases e; rw [hd] at h1; cases h1
        obtain ⟨_, -, hT⟩ := forall₂_mem_left hs h2
        exact ⟨hT.listed ts hts, .inr h2⟩
      | field _ h2 h3 h4 h5 ih =>
        intro e ts hts
        obtain ⟨⟨-, hn, hl⟩, -⟩ := ih e _ h2
        exact ⟨hl _ h3 _ h4 _ h5 _ hts, .inl (hn _ h3 _ h4 _ h5 _ hts)⟩
    intro r hr ts hts
    obtain ⟨⟨h1, -, -⟩, h2⟩ := key _ r hr rfl ts hts
    exact ⟨h1, h2.imp_right fun h2 => ⟨p, d, rfl, hd, h2⟩⟩
  inits := by intro p d he; cases he

theorem declSaid_values {sc : FileScope} {cs : List BuildCall} {h : Heap} {p : Ptr} {d : ValueDecl} {l : List (List GoString × Option (GoType TypeIdent))}
    (hd : h.valueDecls p = some d) (hn : d.specs ≠ []) (hs : List.Forall₂ (fun p x => ValueMeans sc h (d.kind == .const) p x ∧
      ∀ c, h.values p = some c → (∀ r, c.type ≠ .spec r) ∧ ∀ b, c.init = some b → InitFrom cs b) d.specs l) :
    DeclSaid sc cs h (.values p) (.values (d.kind == .const) l) where
  intends := .values hd (.inl hn) (hs.imp fun _ _ h => h.1)
  reached := by
    have key : ∀ e r, ReachedSpec h e r → e ≠ .values p := by
      intro e r hr
      induction hr with
      | value h1 h2 h3 h4 =>
        intro e; cases e; rw [hd] at h1; cases h1
        obtain ⟨_, -, hv⟩ := forall₂_mem_left hs h2
        exact (hv.2 _ h3).1 _ h4
      | type => intro e; cases e
      | field _ _ _ _ _ ih => exact ih
    intro r hr
    exact absurd rfl (key _ r hr)
  inits := by
    intro p' d' he hd' q hq c hc b hb
    cases he
    rw [hd] at hd'; cases hd'
    obtain ⟨_, -, hv⟩ := forall₂_mem_left hs hq
    exact (hv.2 c hc).2 b hb

theorem SaysDecl.said {sc : FileScope} {cs : List BuildCall} {h : Heap} (hb : build cs {} = .ok h) (ho : InOrder cs)
    {e : FileElem} {M : DeclMeaning} (hs : SaysDecl sc cs e M) : DeclSaid sc cs h e M := by
  cases hs with
  | @types ts l g post hm hn hl =>
    obtain ⟨g1, k1, k2, k3, k4, k5, k6⟩ := hm.exec hb
    cases k1
    have k7 := k6.typeDecls g.next { types := ts } (upd_same _ _ _)
    exact declSaid_types k7 hn (hl.imp fun _ _ h => h.said hb ho)
  | @type f t l g post hm hl =>
    obtain ⟨g1, k1, k2, k3, k4, k5, k6⟩ := hm.exec hb
    obtain ⟨g', file, m1, m2, m3, m4, m5, rfl⟩ := addElement_parts (Grown.allocTypeDecls k3 { types := [t] }).fresh k1
    have k7 := k6.typeDecls g.next { types := [t] } (by simp only; rw [m4]; exact upd_same _ _ _)
    exact declSaid_types k7 (by simp) (hl.imp fun _ _ h => h.said hb ho)
  | @values kind vs l g post hm hn hl =>
    obtain ⟨g1, k1, k2, k3, k4, k5, k6⟩ := hm.exec hb
    cases k1
    have k7 := k6.valueDecls g.next { kind, specs := vs } (upd_same _ _ _)
    exact declSaid_values k7 hn (hl.imp fun _ _ h => h.means hb)
  | @value f kind v l g post hm hl =>
    obtain ⟨g1, k1, k2, k3, k4, k5, k6⟩ := hm.exec hb
    obtain ⟨g', file, m1, m2, m3, m4, m5, rfl⟩ := addElement_parts (Grown.allocValueDecls k3 { kind, specs := [v] }).fresh k1
    have k7 := k6.valueDecls g.next { kind, specs := [v] } (by simp only; rw [m3]; exact upd_same _ _ _)
    exact declSaid_values k7 (by simp) (hl.imp fun _ _ h => h.means hb)
  | @func r n g post hm hi hd hr =>
    obtain ⟨g1, k1, k2, k3, k4, k5, k6⟩ := hm.exec hb
    cases k1
    obtain ⟨par, l, k7, -⟩ := k6.funcs g.next { name := n, receiver := r } (upd_same _ _ _)
    have k7 : h.funcs g.next = some ⟨_, n, r, Signature.after ⟨[], [], false⟩ (post.filterMap (·.sig? (.func g.next))), _, par⟩ := k7
    rw [Signature.after_built] at k7
    refine ⟨.func k7 hi hd.1 hd.2.1 hd.2.2.1 hr hd.2.2.2, ?_, by intro p d he; cases he⟩
    have key : ∀ e r, ReachedSpec h e r → e ≠ .func g.next := by
      intro e r hr
      induction hr with
      | value => intro e; cases e
      | type => intro e; cases e
      | field _ _ _ _ _ ih => exact ih
    intro r hr
    exact absurd rfl (key _ r hr)

/-! ### Files -/

theorem steps_fresh : ∀ {cs : List BuildCall} {h : Heap}, h.Fresh → ∀ s ∈ steps cs h, s.2.Fresh := by
  intro cs
  induction cs with
  | nil => intro h _ s hs; cases hs
  | cons c cs ih =>
    intro h hf s hs
    rw [steps] at hs
    rcases List.mem_cons.1 hs with rfl | hs
    · exact hf
    · cases hc : c.exec h with
      | ok g => rw [hc] at hs; exact ih (BuildCall.step hf hc).fresh s hs
      | panic => rw [hc] at hs; cases hs
      | hang => rw [hc] at hs; cases hs

theorem Adds.added {s : BuildCall × Heap} {e : FileElem} (ha : Adds s e) (hf : s.2.Fresh) {p : Ptr} (hp : addsTo p s = true) :
    added? p s = some e := by
  cases ha with
  | @element f e h => simpa [addsTo, BuildCall.addsTo, added?] using hp
  | @value f k v h h' d h1 h2 h3 =>
    obtain ⟨g', file, m1, m2, m3, m4, m5, rfl⟩ := addElement_parts (Grown.allocValueDecls hf { kind := k, specs := [v] }).fresh h2
    have hd : d = h.next := by
      by_contra hne
      simp only [m3] at h3
      rw [upd_ne _ _ hne, h1] at h3
      cases h3
    rw [hd]
    simpa [addsTo, BuildCall.addsTo, added?] using hp
  | @type f v h h' d h1 h2 h3 =>
    obtain ⟨g', file, m1, m2, m3, m4, m5, rfl⟩ := addElement_parts (Grown.allocTypeDecls hf { types := [v] }).fresh h2
    have hd : d = h.next := by
      by_contra hne
      simp only [m4] at h3
      rw [upd_ne _ _ hne, h1] at h3
      cases h3
    rw [hd]
    simpa [addsTo, BuildCall.addsTo, added?] using hp

theorem added_none {s : BuildCall × Heap} {p : Ptr} (hp : addsTo p s = false) : added? p s = none := by
  obtain ⟨c, h⟩ := s
  cases c <;> simp_all [addsTo, BuildCall.addsTo, added?]

theorem adds_filterMap {p : Ptr} : ∀ {ss : List (BuildCall × Heap)} {es : List FileElem}, (∀ s ∈ ss, s.2.Fresh) →
    List.Forall₂ Adds (ss.filter (addsTo p)) es → ss.filterMap (added? p) = es := by
  intro ss
  induction ss with
  | nil => intro es _ h; cases h; rfl
  | cons s ss ih =>
    intro es hf h
    cases hp : addsTo p s with
    | false =>
      rw [List.filter_cons_of_neg (by simp [hp])] at h
      rw [List.filterMap_cons_none (added_none hp)]
      exact ih (fun s hs => hf s (.tail _ hs)) h
    | true =>
      rw [List.filter_cons_of_pos hp] at h
      cases h with
      | cons h1 h2 =>
        rw [List.filterMap_cons_some (h1.added (hf s (.head _)) hp), ih (fun s hs => hf s (.tail _ hs)) h2]

/-- What is found out about the file. -/
structure FileSaid (sc : FileScope) (cs : List BuildCall) (h : Heap) (p : Ptr) (pkg : GoString) (Ms : List DeclMeaning)
    (f : GoFile) : Prop where
  file : h.files p = some f
  imports : f.imports = newImportsFor sc.own
  package : f.packageName = pkg
  decls : List.Forall₂ (DeclSaid sc cs h) f.elements Ms

theorem SaysFile.said {sc : FileScope} {cs : List BuildCall} {h : Heap} (hb : build cs {} = .ok h) (ho : InOrder cs)
    {p : Ptr} {pkg : GoString} {Ms : List DeclMeaning} (hs : SaysFile sc cs p pkg Ms) : ∃ f, FileSaid sc cs h p pkg Ms f := by
  cases hs with
  | @file name _ g g' post _ hm hg hl =>
    obtain ⟨g1, k1, k2, k3, k4, k5, k6⟩ := hm.exec hb
    rw [hg] at k1; cases k1
    obtain ⟨q, h1⟩ := built_ok hg
    obtain ⟨f0, h2, h1⟩ := bind_eq_ok h1
    cases h1
    have hf0 : f0 = { name := name, packageName := pkg, imports := newImportsFor sc.own } := by
      unfold newGoFile at h2
      repeat' split at h2
      all_goals cases h2
      rfl
    obtain ⟨f, es, m1, m2, m3, m4, m5, m6, m7⟩ := k6.files g.next f0 (upd_same _ _ _)
    have := adds_filterMap (steps_fresh k4) m7
    refine ⟨f, m1, by rw [m2, hf0], by rw [m4, hf0], ?_⟩
    rw [m6, hf0, ← this]
    exact hl.imp fun _ _ h => h.said hb ho

/-! ### Names -/

theorem SaysDecl.declared {sc : FileScope} {h : Heap} {e : FileElem} {M : DeclMeaning} (hi : Intends sc h e M) :
    e.declared h = M.declared := by
  cases hi with
  | @types p d ts h1 h2 h3 =>
    simp only [FileElem.declared, h1, DeclMeaning.declared]
    clear h1 h2
    generalize d.types = l at h3 ⊢
    induction h3 with
    | nil => rfl
    | cons h4 _ ih =>
      obtain ⟨ts, t, h5, h6, h7, rfl⟩ := h4
      simp only [List.flatMap_cons, List.map_cons, ih, typeDeclared, h5]
      rfl
  | @values p d vs h1 h2 h3 =>
    simp only [FileElem.declared, h1, DeclMeaning.declared]
    clear h1 h2
    generalize d.specs = l at h3 ⊢
    induction h3 with
    | nil => rfl
    | cons h4 _ ih =>
      obtain ⟨c, t, h5, h6, h7, h8, h9, rfl⟩ := h4
      simp only [List.flatMap_cons, ih, valueDeclared, h5]
  | @func p f h1 h2 h3 h4 h5 h6 h7 =>
    simp only [FileElem.declared, h1]
    cases hr : f.receiver with
    | none => rfl
    | some r =>
      simp only [Option.map_some, DeclMeaning.declared, ReceiverSpec.meaning]
      split <;> rfl

theorem declared_eq {sc : FileScope} {h : Heap} {f : GoFile} {Ms : List DeclMeaning} (hm : List.Forall₂ (Intends sc h) f.elements Ms) :
    f.declared h = declaredBy Ms := by
  rw [GoFile.declared, declaredBy]
  congr 1
  generalize f.elements = es at hm
  induction hm with
  | nil => rfl
  | cons h1 _ ih => simp only [List.flatMap_cons, ih, SaysDecl.declared h1]

end Gopoet
