import Verif.Proof.BuilderGrown
/-! The effect of each call on each object. -/

namespace Gopoet

/-- The change of a signature. -/
def Signature.changed (s : Signature) (c : Option SigCall) : Signature :=
  match c with
  | some c => c.exec s
  | none => s

/-- The line that a call adds. -/
def CodeCall.line? : CodeCall → Option (GoString × List Arg)
  | .print text => some (b! "%s", [.str text])
  | .println text => some (b! "%s" ++ b! "\n", [.str text])
  | .printf format args => some (format, args)
  | .printlnf format args => some (format ++ b! "\n", args)
  | _ => none

/-- The code that calls add. -/
inductive CodeOf (A : Ptr → Option (List Arg)) (T : Ptr → Option Templ) : List (CodeCall × Heap) → CodeBlock → Prop
  | nil : CodeOf A T [] []
  | line {c h format args q cs l} : CodeCall.line? c = some (format, args) → A q = some args →
      CodeOf A T cs l → CodeOf A T ((c, h) :: cs) (.line format q :: l)
  | templ {t data h q cs l} : T q = some { templ := t, data } →
      CodeOf A T cs l → CodeOf A T ((.renderCode t data, h) :: cs) (.templ q :: l)
  | code {b h code cs l} : h.blocks b = some code → CodeOf A T cs l →
      CodeOf A T ((.addCode b, h) :: cs) (code ++ l)

theorem CodeOf.mono {A A' T T'} (ha : Extends Unchanged A A') (ht : Extends Unchanged T T')
    {cs l} (hc : CodeOf A T cs l) : CodeOf A' T' cs l := by
  induction hc with
  | nil => exact .nil
  | line h1 h2 _ ih =>
    obtain ⟨a, h3, rfl⟩ := ha _ _ h2
    exact .line h1 h3 ih
  | templ h2 _ ih =>
    obtain ⟨a, h3, rfl⟩ := ht _ _ h2
    exact .templ h3 ih
  | code h1 _ ih => exact .code h1 ih

theorem CodeOf.append {A T} {cs l ds m} (hc : CodeOf A T cs l) (hd : CodeOf A T ds m) :
    CodeOf A T (cs ++ ds) (l ++ m) := by
  induction hc with
  | nil => exact hd
  | line h1 h2 _ ih => exact .line h1 h2 ih
  | templ h2 _ ih => exact .templ h2 ih
  | code h1 _ ih => rw [List.append_assoc]; exact .code h1 ih

/-- What a call changes. -/
structure BuildStep (c : BuildCall) (h h' : Heap) : Prop where
  next : h.next ≤ h'.next
  fresh : h'.Fresh
  files : ∀ p f, h.files p = some f → ∃ f', h'.files p = some f' ∧ f'.imports = f.imports ∧
    f'.name = f.name ∧ f'.packageName = f.packageName ∧
    (∀ k, f'.get k = (c.fileField? p k).getD (f.get k)) ∧
    (c.addsTo p = false → f'.elements = f.elements) ∧
    (c.addsTo p = true → ∃ e, Adds (c, h) e ∧ f'.elements = f.elements ++ [e])
  values : ∀ p v, h.values p = some v → ∃ par, h'.values p = some { v with
    comment := (c.comment? (.value p)).getD v.comment
    type := (c.type? p).getD v.type
    init := (init? p (c, h)).getD v.init
    parent := par }
  valueDecls : ∀ p d, h.valueDecls p = some d → h'.valueDecls p = some { d with
    comment := (c.comment? (.valueDecl p)).getD d.comment
    specs := d.specs ++ (c.spec? p).toList }
  types : ∀ p t, h.types p = some t → ∃ par, h'.types p = some { t with
    comment := (c.comment? (.type p)).getD t.comment
    parent := par }
  typeDecls : ∀ p d, h.typeDecls p = some d → h'.typeDecls p = some { d with
    comment := (c.comment? (.typeDecl p)).getD d.comment
    types := d.types ++ (c.typeSpec? p).toList }
  fields : ∀ p f, h.fields p = some f → ∃ par, h'.fields p = some { f with
    comment := (c.comment? (.field p)).getD f.comment
    tag := (c.tag? p).getD f.tag
    parent := par }
  embeds : ∀ p e, h.embeds p = some e → ∃ par, h'.embeds p = some { e with
    comment := (c.comment? (.embed p)).getD e.comment
    parent := par }
  methods : ∀ p m, h.methods p = some m → ∃ par, h'.methods p = some { m with
    comment := (c.comment? (.method p)).getD m.comment
    signature := m.signature.changed (c.sig? (.method p))
    parent := par }
  funcs : ∀ p f, h.funcs p = some f → ∃ par l, h'.funcs p = some { f with
    comment := (c.comment? (.func p)).getD f.comment
    signature := f.signature.changed (c.sig? (.func p))
    code := f.code ++ l
    parent := par } ∧ (code? p (c, h) = none → l = []) ∧
    ∀ k, code? p (c, h) = some k → CodeOf h'.args h'.templs [k] l
  args : Extends Unchanged h.args h'.args
  templs : Extends Unchanged h.templs h'.templs

/-- A call that only makes objects. -/
theorem Grown.step {c : BuildCall} {h h' : Heap} (g : Grown h h')
    (h1 : ∀ p k, c.fileField? p k = none) (h2 : ∀ p, c.addsTo p = false)
    (h3 : ∀ o, c.comment? o = none) (h4 : ∀ p, c.type? p = none) (h5 : ∀ p, init? p (c, h) = none)
    (h6 : ∀ p, c.spec? p = none) (h7 : ∀ p, c.typeSpec? p = none) (h8 : ∀ p, c.tag? p = none)
    (h9 : ∀ o, c.sig? o = none) (h10 : ∀ p, code? p (c, h) = none) : BuildStep c h h' where
  next := g.next
  fresh := g.fresh
  files p f hp := by
    obtain ⟨f', hf, rfl⟩ := g.files p f hp
    exact ⟨_, hf, rfl, rfl, rfl, fun k => by rw [h1]; rfl, fun _ => rfl, fun h => by rw [h2] at h; cases h⟩
  values p v hp := by
    obtain ⟨v', hv, par, rfl⟩ := g.values p v hp
    exact ⟨par, by rw [hv, h3, h4, h5]; rfl⟩
  valueDecls p d hp := by
    obtain ⟨d', hd, rfl⟩ := g.valueDecls p d hp
    rw [hd, h3, h6]; simp
  types p t hp := by
    obtain ⟨v', hv, par, rfl⟩ := g.types p t hp
    exact ⟨par, by rw [hv, h3]; rfl⟩
  typeDecls p d hp := by
    obtain ⟨d', hd, rfl⟩ := g.typeDecls p d hp
    rw [hd, h3, h7]; simp
  fields p t hp := by
    obtain ⟨v', hv, par, rfl⟩ := g.fields p t hp
    exact ⟨par, by rw [hv, h3, h8]; rfl⟩
  embeds p t hp := by
    obtain ⟨v', hv, par, rfl⟩ := g.embeds p t hp
    exact ⟨par, by rw [hv, h3]; rfl⟩
  methods p t hp := by
    obtain ⟨v', hv, par, rfl⟩ := g.methods p t hp
    exact ⟨par, by rw [hv, h3, h9]; rfl⟩
  funcs p t hp := by
    obtain ⟨v', hv, par, rfl⟩ := g.funcs p t hp
    exact ⟨par, [], by rw [hv, h3, h9]; simp [Signature.changed], fun _ => rfl, fun k hk => by
      rw [h10] at hk; cases hk⟩
  args := g.args
  templs := g.templs

macro "trivial_step " g:term : tactic =>
  `(tactic| exact Grown.step $g (fun _ _ => rfl) (fun _ => rfl) (fun _ => rfl) (fun _ => rfl)
    (fun _ => rfl) (fun _ => rfl) (fun _ => rfl) (fun _ => rfl) (fun _ => rfl) (fun _ => rfl))

theorem built_ok {r : Outcome (Ptr × Heap)} {h' : Heap} (h : built r = .ok h') :
    ∃ p, r = .ok (p, h') := by
  obtain ⟨⟨p, g⟩, h1, h⟩ := bind_eq_ok h
  cases h
  exact ⟨p, h1⟩


/-- A table that stays, and what the call does not say. -/
macro "kept" : tactic =>
  `(tactic| first
    | (intro q x hq; exact ⟨x, hq, rfl, rfl, rfl, fun k => rfl, fun _ => rfl, fun h => by cases h⟩)
    | (intro q x hq; exact ⟨x.parent, hq⟩)
    | (intro q x hq; exact ⟨x.parent, [], by rw [List.append_nil]; exact hq, fun _ => rfl, fun k hk => by cases hk⟩)
    | (intro q x hq; dsimp only; simp only [BuildCall.spec?, BuildCall.typeSpec?, Option.toList_none, List.append_nil]; exact hq)
    | exact Extends.refl Unchanged.refl _
    | exact Nat.le_refl _)

theorem step_valueComment {h h' : Heap} {p : Ptr} {s : GoString} (hf : h.Fresh)
    (hc : valueSetComment h p s = .ok h') : BuildStep (.setComment (.value p) s) h h' := by
  obtain ⟨m, h1, hc⟩ := bind_eq_ok hc
  cases hc
  obtain ⟨a, h2, rfl⟩ := modAt_ok h1
  constructor
  case fresh => exact hf.setValues (n := h.next) (lt_next hf.values h2) (Nat.le_refl _) _
  case values =>
    intro q v hq
    refine ⟨v.parent, ?_⟩
    by_cases hqp : q = p
    · subst hqp
      rw [h2] at hq; cases hq
      simp [upd_same, BuildCall.comment?, BuildCall.type?, init?]
    · simp [upd_ne _ _ hqp, BuildCall.comment?, BuildCall.type?, init?, hq, Ne.symm hqp]
  all_goals kept

theorem step_valueType {h h' : Heap} {p : Ptr} {t : TypeRef} (hf : h.Fresh)
    (hc : valueSetType h p t = .ok h') : BuildStep (.setType p t) h h' := by
  obtain ⟨m, h1, hc⟩ := bind_eq_ok hc
  cases hc
  obtain ⟨a, h2, rfl⟩ := modAt_ok h1
  constructor
  case fresh => exact hf.setValues (n := h.next) (lt_next hf.values h2) (Nat.le_refl _) _
  case values =>
    intro q v hq
    refine ⟨v.parent, ?_⟩
    by_cases hqp : q = p
    · subst hqp
      rw [h2] at hq; cases hq
      simp [upd_same, BuildCall.comment?, BuildCall.type?, init?]
    · simp [upd_ne _ _ hqp, BuildCall.comment?, BuildCall.type?, init?, hq, Ne.symm hqp]
  all_goals kept

theorem step_valueInitializer {h h' : Heap} {p : Ptr} {b : Option Ptr} (hf : h.Fresh)
    (hc : valueSetInitializer h p b = .ok h') : BuildStep (.setInitializer p b) h h' := by
  obtain ⟨m, h1, hc⟩ := bind_eq_ok hc
  cases hc
  obtain ⟨a, h2, rfl⟩ := modAt_ok h1
  constructor
  case fresh => exact hf.setValues (n := h.next) (lt_next hf.values h2) (Nat.le_refl _) _
  case values =>
    intro q v hq
    refine ⟨v.parent, ?_⟩
    by_cases hqp : q = p
    · subst hqp
      rw [h2] at hq; cases hq
      simp [upd_same, BuildCall.comment?, BuildCall.type?, init?]
    · simp [upd_ne _ _ hqp, BuildCall.comment?, BuildCall.type?, init?, hq, Ne.symm hqp]
  all_goals kept

theorem step_valueDeclComment {h h' : Heap} {p : Ptr} {s : GoString} (hf : h.Fresh)
    (hc : valueDeclSetComment h p s = .ok h') : BuildStep (.setComment (.valueDecl p) s) h h' := by
  obtain ⟨m, h1, hc⟩ := bind_eq_ok hc
  cases hc
  obtain ⟨a, h2, rfl⟩ := modAt_ok h1
  constructor
  case fresh => exact hf.setValueDecls (n := h.next) (lt_next hf.valueDecls h2) (Nat.le_refl _) _
  case valueDecls =>
    intro q v hq
    dsimp only
    by_cases hqp : q = p
    · subst hqp
      rw [h2] at hq; cases hq
      simp [upd_same, BuildCall.comment?, BuildCall.spec?]
    · simp [upd_ne _ _ hqp, BuildCall.comment?, BuildCall.spec?, hq, Ne.symm hqp]
  all_goals kept

theorem step_typeDeclComment {h h' : Heap} {p : Ptr} {s : GoString} (hf : h.Fresh)
    (hc : typeDeclSetComment h p s = .ok h') : BuildStep (.setComment (.typeDecl p) s) h h' := by
  obtain ⟨m, h1, hc⟩ := bind_eq_ok hc
  cases hc
  obtain ⟨a, h2, rfl⟩ := modAt_ok h1
  constructor
  case fresh => exact hf.setTypeDecls (n := h.next) (lt_next hf.typeDecls h2) (Nat.le_refl _) _
  case typeDecls =>
    intro q v hq
    dsimp only
    by_cases hqp : q = p
    · subst hqp
      rw [h2] at hq; cases hq
      simp [upd_same, BuildCall.comment?, BuildCall.typeSpec?]
    · simp [upd_ne _ _ hqp, BuildCall.comment?, BuildCall.typeSpec?, hq, Ne.symm hqp]
  all_goals kept

theorem step_typeComment {h h' : Heap} {p : Ptr} {s : GoString} (hf : h.Fresh)
    (hc : typeSetComment h p s = .ok h') : BuildStep (.setComment (.type p) s) h h' := by
  obtain ⟨m, h1, hc⟩ := bind_eq_ok hc
  cases hc
  obtain ⟨a, h2, rfl⟩ := modAt_ok h1
  constructor
  case fresh => exact hf.setTypes (n := h.next) (lt_next hf.types h2) (Nat.le_refl _) _
  case types =>
    intro q v hq
    refine ⟨v.parent, ?_⟩
    by_cases hqp : q = p
    · subst hqp
      rw [h2] at hq; cases hq
      simp [upd_same, BuildCall.comment?]
    · simp [upd_ne _ _ hqp, BuildCall.comment?, hq, Ne.symm hqp]
  all_goals kept

theorem step_fieldComment {h h' : Heap} {p : Ptr} {s : GoString} (hf : h.Fresh)
    (hc : fieldSetComment h p s = .ok h') : BuildStep (.setComment (.field p) s) h h' := by
  obtain ⟨m, h1, hc⟩ := bind_eq_ok hc
  cases hc
  obtain ⟨a, h2, rfl⟩ := modAt_ok h1
  constructor
  case fresh => exact hf.setFields (n := h.next) (lt_next hf.fields h2) (Nat.le_refl _) _
  case fields =>
    intro q v hq
    refine ⟨v.parent, ?_⟩
    by_cases hqp : q = p
    · subst hqp
      rw [h2] at hq; cases hq
      simp [upd_same, BuildCall.comment?, BuildCall.tag?]
    · simp [upd_ne _ _ hqp, BuildCall.comment?, BuildCall.tag?, hq, Ne.symm hqp]
  all_goals kept

theorem step_fieldTag {h h' : Heap} {p : Ptr} {s : GoString} (hf : h.Fresh)
    (hc : fieldSetTag h p s = .ok h') : BuildStep (.setTag p s) h h' := by
  obtain ⟨m, h1, hc⟩ := bind_eq_ok hc
  cases hc
  obtain ⟨a, h2, rfl⟩ := modAt_ok h1
  constructor
  case fresh => exact hf.setFields (n := h.next) (lt_next hf.fields h2) (Nat.le_refl _) _
  case fields =>
    intro q v hq
    refine ⟨v.parent, ?_⟩
    by_cases hqp : q = p
    · subst hqp
      rw [h2] at hq; cases hq
      simp [upd_same, BuildCall.comment?, BuildCall.tag?]
    · simp [upd_ne _ _ hqp, BuildCall.comment?, BuildCall.tag?, hq, Ne.symm hqp]
  all_goals kept

theorem step_embedComment {h h' : Heap} {p : Ptr} {s : GoString} (hf : h.Fresh)
    (hc : embedSetComment h p s = .ok h') : BuildStep (.setComment (.embed p) s) h h' := by
  obtain ⟨m, h1, hc⟩ := bind_eq_ok hc
  cases hc
  obtain ⟨a, h2, rfl⟩ := modAt_ok h1
  constructor
  case fresh => exact hf.setEmbeds (n := h.next) (lt_next hf.embeds h2) (Nat.le_refl _) _
  case embeds =>
    intro q v hq
    refine ⟨v.parent, ?_⟩
    by_cases hqp : q = p
    · subst hqp
      rw [h2] at hq; cases hq
      simp [upd_same, BuildCall.comment?]
    · simp [upd_ne _ _ hqp, BuildCall.comment?, hq, Ne.symm hqp]
  all_goals kept

theorem step_methodComment {h h' : Heap} {p : Ptr} {s : GoString} (hf : h.Fresh)
    (hc : methodSetComment h p s = .ok h') : BuildStep (.setComment (.method p) s) h h' := by
  obtain ⟨m, h1, hc⟩ := bind_eq_ok hc
  cases hc
  obtain ⟨a, h2, rfl⟩ := modAt_ok h1
  constructor
  case fresh => exact hf.setMethods (n := h.next) (lt_next hf.methods h2) (Nat.le_refl _) _
  case methods =>
    intro q v hq
    refine ⟨v.parent, ?_⟩
    by_cases hqp : q = p
    · subst hqp
      rw [h2] at hq; cases hq
      simp [upd_same, BuildCall.comment?, BuildCall.sig?, Signature.changed]
    · simp [upd_ne _ _ hqp, BuildCall.comment?, BuildCall.sig?, Signature.changed, hq, Ne.symm hqp]
  all_goals kept

theorem step_methodSig {h h' : Heap} {p : Ptr} {c : SigCall} (hf : h.Fresh)
    (hc : methodSigCall h p c = .ok h') : BuildStep (.methodSig p c) h h' := by
  obtain ⟨m, h1, hc⟩ := bind_eq_ok hc
  cases hc
  obtain ⟨a, h2, rfl⟩ := modAt_ok h1
  constructor
  case fresh => exact hf.setMethods (n := h.next) (lt_next hf.methods h2) (Nat.le_refl _) _
  case methods =>
    intro q v hq
    refine ⟨v.parent, ?_⟩
    by_cases hqp : q = p
    · subst hqp
      rw [h2] at hq; cases hq
      simp [upd_same, BuildCall.comment?, BuildCall.sig?, Signature.changed]
    · simp [upd_ne _ _ hqp, BuildCall.comment?, BuildCall.sig?, Signature.changed, hq, Ne.symm hqp]
  all_goals kept

theorem step_funcComment {h h' : Heap} {p : Ptr} {s : GoString} (hf : h.Fresh)
    (hc : funcSetComment h p s = .ok h') : BuildStep (.setComment (.func p) s) h h' := by
  obtain ⟨m, h1, hc⟩ := bind_eq_ok hc
  cases hc
  obtain ⟨a, h2, rfl⟩ := modAt_ok h1
  constructor
  case fresh => exact hf.setFuncs (n := h.next) (lt_next hf.funcs h2) (Nat.le_refl _) _
  case funcs =>
    intro q v hq
    refine ⟨v.parent, [], ?_, fun _ => rfl, fun k hk => by cases hk⟩
    by_cases hqp : q = p
    · subst hqp
      rw [h2] at hq; cases hq
      simp [upd_same, BuildCall.comment?, BuildCall.sig?, Signature.changed]
    · simp [upd_ne _ _ hqp, BuildCall.comment?, BuildCall.sig?, Signature.changed, hq, Ne.symm hqp]
  all_goals kept

theorem step_funcSig {h h' : Heap} {p : Ptr} {c : SigCall} (hf : h.Fresh)
    (hc : funcSigCall h p c = .ok h') : BuildStep (.funcSig p c) h h' := by
  obtain ⟨m, h1, hc⟩ := bind_eq_ok hc
  cases hc
  obtain ⟨a, h2, rfl⟩ := modAt_ok h1
  constructor
  case fresh => exact hf.setFuncs (n := h.next) (lt_next hf.funcs h2) (Nat.le_refl _) _
  case funcs =>
    intro q v hq
    refine ⟨v.parent, [], ?_, fun _ => rfl, fun k hk => by cases hk⟩
    by_cases hqp : q = p
    · subst hqp
      rw [h2] at hq; cases hq
      simp [upd_same, BuildCall.comment?, BuildCall.sig?, Signature.changed]
    · simp [upd_ne _ _ hqp, BuildCall.comment?, BuildCall.sig?, Signature.changed, hq, Ne.symm hqp]
  all_goals kept

theorem step_fileField {h h' : Heap} {p : Ptr} {k : FileField} {s : GoString} (hf : h.Fresh)
    (hc : fileAssign h p k s = .ok h') : BuildStep (.fileField p k s) h h' := by
  obtain ⟨m, h1, hc⟩ := bind_eq_ok hc
  cases hc
  obtain ⟨a, h2, rfl⟩ := modAt_ok h1
  constructor
  case fresh => exact hf.setFiles (n := h.next) (lt_next hf.files h2) (Nat.le_refl _) _
  case files =>
    intro q v hq
    by_cases hqp : q = p
    · subst hqp
      rw [h2] at hq; cases hq
      refine ⟨_, upd_same _ _ _, ?_⟩
      cases k <;> refine ⟨rfl, rfl, rfl, ?_, fun _ => rfl, fun h => by cases h⟩ <;> intro k <;>
        cases k <;> simp [BuildCall.fileField?, GoFile.get, GoFile.assign]
    · refine ⟨v, by rw [← hq]; exact upd_ne _ _ hqp, rfl, rfl, rfl, ?_, fun _ => rfl, fun h => by cases h⟩
      intro k
      simp [BuildCall.fileField?, Ne.symm hqp]
  all_goals kept

theorem step_declAddValue {h h' : Heap} {p s : Ptr} (hf : h.Fresh)
    (hc : declAddValue h p s = .ok h') : BuildStep (.declAddValue p s) h h' := by
  obtain ⟨a, h1, hc⟩ := bind_eq_ok hc
  cases hc
  have h2 := deref_eq_ok h1
  constructor
  case fresh => exact hf.setValueDecls (n := h.next) (lt_next hf.valueDecls h2) (Nat.le_refl _) _
  case valueDecls =>
    intro q v hq
    dsimp only
    by_cases hqp : q = p
    · subst hqp
      rw [h2] at hq; cases hq
      simp [upd_same, BuildCall.comment?, BuildCall.spec?]
    · simp [upd_ne _ _ hqp, BuildCall.comment?, BuildCall.spec?, hq, Ne.symm hqp]
  all_goals kept

theorem step_declAddType {h h' : Heap} {p s : Ptr} (hf : h.Fresh)
    (hc : declAddType h p s = .ok h') : BuildStep (.declAddType p s) h h' := by
  obtain ⟨a, h1, hc⟩ := bind_eq_ok hc
  cases hc
  have h2 := deref_eq_ok h1
  constructor
  case fresh => exact hf.setTypeDecls (n := h.next) (lt_next hf.typeDecls h2) (Nat.le_refl _) _
  case typeDecls =>
    intro q v hq
    dsimp only
    by_cases hqp : q = p
    · subst hqp
      rw [h2] at hq; cases hq
      simp [upd_same, BuildCall.comment?, BuildCall.typeSpec?]
    · simp [upd_ne _ _ hqp, BuildCall.comment?, BuildCall.typeSpec?, hq, Ne.symm hqp]
  all_goals kept

/-- Files stay. -/
theorem Grown.filesKept {h g : Heap} (a : Grown h g) {c : BuildCall}
    (h1 : ∀ p k, c.fileField? p k = none) (h2 : ∀ p, c.addsTo p = false) :
    ∀ p f, h.files p = some f → ∃ f', g.files p = some f' ∧ f'.imports = f.imports ∧
    f'.name = f.name ∧ f'.packageName = f.packageName ∧
    (∀ k, f'.get k = (c.fileField? p k).getD (f.get k)) ∧
    (c.addsTo p = false → f'.elements = f.elements) ∧
    (c.addsTo p = true → ∃ e, Adds (c, h) e ∧ f'.elements = f.elements ++ [e]) := by
  intro p f hp
  obtain ⟨f', hf, rfl⟩ := a.files p f hp
  exact ⟨_, hf, rfl, rfl, rfl, fun k => by rw [h1]; rfl, fun _ => rfl, fun h => by rw [h2] at h; cases h⟩

/-- A call that makes objects, as a step. -/
theorem Grown.neutral {h g : Heap} (a : Grown h g) : BuildStep (.newBlock none) h g := by
  trivial_step a

theorem step_addElement {h h' : Heap} {f : Ptr} {e : FileElem} (hf : h.Fresh)
    (hc : addElement h f e = .ok h') : BuildStep (.addElement f e) h h' := by
  obtain ⟨g, file, g1, g2, g3, g4, g5, rfl⟩ := addElement_parts hf hc
  have n := g1.neutral
  refine ⟨n.next, ?_, ?_, n.values, n.valueDecls, n.types, n.typeDecls, n.fields, n.embeds, n.methods,
    n.funcs, n.args, n.templs⟩
  · exact g1.fresh.setFiles (n := g.next) (lt_next g1.fresh.files (by rw [g2]; exact g5)) (Nat.le_refl _) _
  · intro q v hq
    by_cases hqp : q = f
    · subst hqp
      rw [g5] at hq; cases hq
      exact ⟨_, upd_same _ _ _, rfl, rfl, rfl, fun k => rfl, fun h => by simp [BuildCall.addsTo] at h,
        fun _ => ⟨e, .element, rfl⟩⟩
    · refine ⟨v, by rw [← hq, ← g2]; exact upd_ne _ _ hqp, rfl, rfl, rfl, fun k => rfl, fun _ => rfl, ?_⟩
      intro h; simp [BuildCall.addsTo, Ne.symm hqp] at h

theorem step_addValue {h h' : Heap} {f s : Ptr} {k : ValueKind} (hf : h.Fresh)
    (hc : addValue h f k s = .ok h') : BuildStep (.addValue f k s) h h' := by
  have hc' := hc
  unfold addValue at hc
  have g0 := Grown.allocValueDecls hf { kind := k, specs := [s] }
  obtain ⟨g, file, g1, g2, g3, g4, g5, rfl⟩ := addElement_parts g0.fresh hc
  have n := (g0.trans g1).neutral
  refine ⟨n.next, ?_, ?_, n.values, n.valueDecls, n.types, n.typeDecls, n.fields, n.embeds, n.methods,
    n.funcs, n.args, n.templs⟩
  · exact g1.fresh.setFiles (n := g.next) (lt_next g1.fresh.files (by rw [g2]; exact g5)) (Nat.le_refl _) _
  · intro q v hq
    by_cases hqp : q = f
    · subst hqp
      have hq' := g5
      dsimp only at hq'
      rw [hq] at hq'; cases hq'
      refine ⟨_, upd_same _ _ _, rfl, rfl, rfl, fun k => rfl, fun h => by simp [BuildCall.addsTo] at h,
        fun _ => ⟨.values h.next, .value (hf.valueDecls _ (Nat.le_refl _)) hc' ?_, rfl⟩⟩
      dsimp only
      rw [g3]; exact upd_same _ _ _
    · refine ⟨v, ?_, rfl, rfl, rfl, fun k => rfl, fun _ => rfl, ?_⟩
      · dsimp only
        rw [upd_ne _ _ hqp, g2]; exact hq
      · intro h; simp [BuildCall.addsTo, Ne.symm hqp] at h

theorem step_addType {h h' : Heap} {f s : Ptr} (hf : h.Fresh)
    (hc : addType h f s = .ok h') : BuildStep (.addType f s) h h' := by
  have hc' := hc
  unfold addType at hc
  have g0 := Grown.allocTypeDecls hf { types := [s] }
  obtain ⟨g, file, g1, g2, g3, g4, g5, rfl⟩ := addElement_parts g0.fresh hc
  have n := (g0.trans g1).neutral
  refine ⟨n.next, ?_, ?_, n.values, n.valueDecls, n.types, n.typeDecls, n.fields, n.embeds, n.methods,
    n.funcs, n.args, n.templs⟩
  · exact g1.fresh.setFiles (n := g.next) (lt_next g1.fresh.files (by rw [g2]; exact g5)) (Nat.le_refl _) _
  · intro q v hq
    by_cases hqp : q = f
    · subst hqp
      have hq' := g5
      dsimp only at hq'
      rw [hq] at hq'; cases hq'
      refine ⟨_, upd_same _ _ _, rfl, rfl, rfl, fun k => rfl, fun h => by simp [BuildCall.addsTo] at h,
        fun _ => ⟨.types h.next, .type (hf.typeDecls _ (Nat.le_refl _)) hc' ?_, rfl⟩⟩
      dsimp only
      rw [g4]; exact upd_same _ _ _
    · refine ⟨v, ?_, rfl, rfl, rfl, fun k => rfl, fun _ => rfl, ?_⟩
      · dsimp only
        rw [upd_ne _ _ hqp, g2]; exact hq
      · intro h; simp [BuildCall.addsTo, Ne.symm hqp] at h

theorem step_initialize {h h' : Heap} {p : Ptr} {format : GoString} {args : List Arg} (hf : h.Fresh)
    (hc : valueInitialize h p format args = .ok h') : BuildStep (.initWith p format args) h h' := by
  obtain ⟨⟨b, g⟩, h1, hc⟩ := bind_eq_ok hc
  obtain ⟨g1, rfl⟩ := newBlock_grown hf h1
  have n := g1.neutral
  have s := step_valueInitializer g1.fresh hc
  obtain ⟨m, h3, hc⟩ := bind_eq_ok hc
  cases hc
  refine ⟨Nat.le_trans n.next s.next, s.fresh, g1.filesKept (fun _ _ => rfl) (fun _ => rfl), ?_, n.valueDecls, n.types, n.typeDecls, n.fields,
    n.embeds, n.methods, n.funcs, n.args, n.templs⟩
  intro q v hq
  obtain ⟨par, h4⟩ := n.values q v hq
  obtain ⟨par', h5⟩ := s.values q _ h4
  refine ⟨par', ?_⟩
  rw [h5]
  simp [BuildCall.comment?, BuildCall.type?, init?]

/-- What a call adds to a block. -/
theorem CodeCall.exec_code {cb cb' : CodeBlock} {h h' : Heap} {c : CodeCall}
    (hc : c.exec cb h = .ok (cb', h')) : ∃ l, cb' = cb ++ l ∧ CodeOf h'.args h'.templs [(c, h)] l := by
  cases c with
  | print text => cases hc; exact ⟨_, rfl, .line rfl (upd_same ..) .nil⟩
  | println text => cases hc; exact ⟨_, rfl, .line rfl (upd_same ..) .nil⟩
  | printf format args => cases hc; exact ⟨_, rfl, .line rfl (upd_same ..) .nil⟩
  | printlnf format args => cases hc; exact ⟨_, rfl, .line rfl (upd_same ..) .nil⟩
  | renderCode t data => cases hc; exact ⟨_, rfl, .templ (upd_same ..) .nil⟩
  | addCode b =>
    obtain ⟨code, h1, hc⟩ := bind_eq_ok hc
    cases hc
    refine ⟨code ++ [], by simp [CodeBlock.addCode], .code (deref_eq_ok h1) .nil⟩

theorem step_funcCode {h h' : Heap} {p : Ptr} {c : CodeCall} (hf : h.Fresh)
    (hc : funcCodeCall h p c = .ok h') : BuildStep (.funcCode p c) h h' := by
  obtain ⟨f, h1, hc⟩ := bind_eq_ok hc
  obtain ⟨⟨cb, g⟩, h2, hc⟩ := bind_eq_ok hc
  cases hc
  have hp := deref_eq_ok h1
  obtain ⟨g1, g2, g3, _⟩ := CodeCall.exec_grown hf h2
  obtain ⟨l, rfl, g4⟩ := CodeCall.exec_code h2
  have n := g1.neutral
  refine ⟨n.next, ?_, g1.filesKept (fun _ _ => rfl) (fun _ => rfl), n.values, n.valueDecls, n.types, n.typeDecls, n.fields, n.embeds,
    n.methods, ?_, n.args, n.templs⟩
  · exact g1.fresh.setFuncs (n := g.next) (lt_next g1.fresh.funcs (by rw [g3]; exact hp)) (Nat.le_refl _) _
  · intro q v hq
    by_cases hqp : q = p
    · subst hqp
      rw [hp] at hq; cases hq
      refine ⟨f.parent, l, upd_same _ _ _, fun h => by simp [code?] at h, ?_⟩
      intro k hk
      simp only [code?, if_true, Option.some.injEq] at hk
      subst hk
      exact g4
    · refine ⟨v.parent, [], ?_, fun _ => rfl, fun k hk => ?_⟩
      · dsimp only
        rw [upd_ne _ _ hqp, g3, hq]
        simp [BuildCall.comment?, BuildCall.sig?, Signature.changed]
      · simp [code?, Ne.symm hqp] at hk

theorem step_blockCode {h h' : Heap} {p : Ptr} {c : CodeCall} (hf : h.Fresh)
    (hc : blockCall h p c = .ok h') : BuildStep (.blockCode p c) h h' := by
  obtain ⟨f, h1, hc⟩ := bind_eq_ok hc
  obtain ⟨⟨cb, g⟩, h2, hc⟩ := bind_eq_ok hc
  cases hc
  have hp := deref_eq_ok h1
  obtain ⟨g1, g2, g3, _⟩ := CodeCall.exec_grown hf h2
  have n := g1.neutral
  refine ⟨n.next, ?_, g1.filesKept (fun _ _ => rfl) (fun _ => rfl), n.values, n.valueDecls, n.types, n.typeDecls, n.fields, n.embeds,
    n.methods, n.funcs, n.args, n.templs⟩
  exact g1.fresh.setBlocks (n := g.next) (lt_next g1.fresh.blocks (by rw [g2]; exact hp)) (Nat.le_refl _) _

/-- Every call is a step. -/
theorem BuildCall.step {c : BuildCall} {h h' : Heap} (hf : h.Fresh) (hc : c.exec h = .ok h') :
    BuildStep c h h' := by
  cases c with
  | newValue k names => cases hc; trivial_step (Grown.allocValues hf _)
  | newValueDecl k specs => cases hc; trivial_step (Grown.allocValueDecls hf _)
  | newTypeDecl types => cases hc; trivial_step (Grown.allocTypeDecls hf _)
  | newTypeSpec name t =>
    obtain ⟨p, hc⟩ := built_ok hc
    trivial_step (newTypeSpec_grown hf hc).1
  | newTypeAlias name t =>
    obtain ⟨p, hc⟩ := built_ok hc
    trivial_step (newTypeAlias_grown hf hc).1
  | newStructTypeSpec name fields =>
    obtain ⟨p, hc⟩ := built_ok hc
    trivial_step (newStructTypeSpec_grown hf hc).1
  | newInterfaceTypeSpec name elems =>
    obtain ⟨p, hc⟩ := built_ok hc
    trivial_step (newInterfaceTypeSpec_grown hf hc).1
  | newField name t => cases hc; trivial_step (Grown.allocFields hf _)
  | newInterfaceEmbed s => cases hc; trivial_step (Grown.allocEmbeds hf _)
  | newInterfaceMethod name => cases hc; trivial_step (Grown.allocMethods hf _)
  | newFunc r name => cases hc; trivial_step (Grown.allocFuncs hf _)
  | newBlock call =>
    obtain ⟨p, hc⟩ := built_ok hc
    trivial_step (newBlock_grown hf hc).1
  | newFile n pp pn =>
    obtain ⟨p, hc⟩ := built_ok hc
    trivial_step (allocFile_grown hf hc).1
  | setComment o s =>
    cases o with
    | value p => exact step_valueComment hf hc
    | valueDecl p => exact step_valueDeclComment hf hc
    | type p => exact step_typeComment hf hc
    | typeDecl p => exact step_typeDeclComment hf hc
    | field p => exact step_fieldComment hf hc
    | embed p => exact step_embedComment hf hc
    | method p => exact step_methodComment hf hc
    | func p => exact step_funcComment hf hc
  | setType p t => exact step_valueType hf hc
  | setInitializer p b => exact step_valueInitializer hf hc
  | initWith p format args => exact step_initialize hf hc
  | setTag p tag => exact step_fieldTag hf hc
  | methodSig p c => exact step_methodSig hf hc
  | funcSig p c => exact step_funcSig hf hc
  | funcCode p c => exact step_funcCode hf hc
  | blockCode p c => exact step_blockCode hf hc
  | fileField p k s => exact step_fileField hf hc
  | addElement f e => exact step_addElement hf hc
  | addValue f k s => exact step_addValue hf hc
  | addType f t => exact step_addType hf hc
  | declAddValue d s => exact step_declAddValue hf hc
  | declAddType d t => exact step_declAddType hf hc

end Gopoet
