import Verif.Proof.BuilderSteps
import Verif.Props.Code
/-! The effect of a list of calls. -/

namespace Gopoet

/-- A signature after some changes. -/
def Signature.after (s : Signature) (cs : List SigCall) : Signature :=
  ⟨s.args ++ cs.filterMap SigCall.arg?, s.results ++ cs.filterMap SigCall.result?,
    lastOr s.isVariadic (cs.filterMap SigCall.variadic?)⟩

theorem Signature.after_nil (s : Signature) : s.after [] = s := by
  cases s; simp [Signature.after, lastOr]

theorem Signature.after_cons (s : Signature) (c : SigCall) (cs : List SigCall) :
    s.after (c :: cs) = (c.exec s).after cs := by
  cases s
  cases c <;> simp [Signature.after, SigCall.exec, Signature.addArg, Signature.addResult,
    Signature.setVariadic, SigCall.arg?, SigCall.result?, SigCall.variadic?, lastOr, List.filterMap_cons]

theorem Signature.after_changed (s : Signature) (o : Obj) (c : BuildCall) (cs : List BuildCall) :
    s.after ((c :: cs).filterMap (·.sig? o)) = (s.changed (c.sig? o)).after (cs.filterMap (·.sig? o)) := by
  cases h : c.sig? o with
  | none => simp [h, Signature.changed]
  | some k => simp [h, Signature.changed, Signature.after_cons]

theorem filterMap_toList {α β : Type} (g : α → Option β) (a : α) (l : List α) :
    (a :: l).filterMap g = (g a).toList ++ l.filterMap g := by
  cases h : g a <;> simp [h]

theorem steps_cons {c : BuildCall} {cs : List BuildCall} {h h' : Heap} (hc : c.exec h = .ok h') :
    steps (c :: cs) h = (c, h) :: steps cs h' := by
  simp [steps, hc]

/-- The call adds to the file. -/
def addsTo (f : Ptr) (s : BuildCall × Heap) : Bool := s.1.addsTo f

/-- What a list of calls changes. -/
structure Built (cs : List BuildCall) (h h' : Heap) : Prop where
  next : h.next ≤ h'.next
  fresh : h'.Fresh
  files : ∀ p f, h.files p = some f → ∃ f' es, h'.files p = some f' ∧ f'.imports = f.imports ∧
    f'.name = f.name ∧ f'.packageName = f.packageName ∧
    (∀ k, f'.get k = lastOr (f.get k) (cs.filterMap (·.fileField? p k))) ∧
    f'.elements = f.elements ++ es ∧ List.Forall₂ Adds ((steps cs h).filter (addsTo p)) es
  values : ∀ p v, h.values p = some v → ∃ par, h'.values p = some { v with
    comment := lastOr v.comment (cs.filterMap (·.comment? (.value p)))
    type := lastOr v.type (cs.filterMap (·.type? p))
    init := lastOr v.init ((steps cs h).filterMap (init? p))
    parent := par }
  valueDecls : ∀ p d, h.valueDecls p = some d → h'.valueDecls p = some { d with
    comment := lastOr d.comment (cs.filterMap (·.comment? (.valueDecl p)))
    specs := d.specs ++ cs.filterMap (·.spec? p) }
  types : ∀ p t, h.types p = some t → ∃ par, h'.types p = some { t with
    comment := lastOr t.comment (cs.filterMap (·.comment? (.type p)))
    parent := par }
  typeDecls : ∀ p d, h.typeDecls p = some d → h'.typeDecls p = some { d with
    comment := lastOr d.comment (cs.filterMap (·.comment? (.typeDecl p)))
    types := d.types ++ cs.filterMap (·.typeSpec? p) }
  fields : ∀ p f, h.fields p = some f → ∃ par, h'.fields p = some { f with
    comment := lastOr f.comment (cs.filterMap (·.comment? (.field p)))
    tag := lastOr f.tag (cs.filterMap (·.tag? p))
    parent := par }
  embeds : ∀ p e, h.embeds p = some e → ∃ par, h'.embeds p = some { e with
    comment := lastOr e.comment (cs.filterMap (·.comment? (.embed p)))
    parent := par }
  methods : ∀ p m, h.methods p = some m → ∃ par, h'.methods p = some { m with
    comment := lastOr m.comment (cs.filterMap (·.comment? (.method p)))
    signature := m.signature.after (cs.filterMap (·.sig? (.method p)))
    parent := par }
  funcs : ∀ p f, h.funcs p = some f → ∃ par l, h'.funcs p = some { f with
    comment := lastOr f.comment (cs.filterMap (·.comment? (.func p)))
    signature := f.signature.after (cs.filterMap (·.sig? (.func p)))
    code := f.code ++ l
    parent := par } ∧
    CodeOf h'.args h'.templs ((steps cs h).filterMap (code? p)) l
  args : Extends Unchanged h.args h'.args
  templs : Extends Unchanged h.templs h'.templs

theorem Built.nil {h : Heap} (hf : h.Fresh) : Built [] h h where
  next := Nat.le_refl _
  fresh := hf
  files p f hp := ⟨f, [], hp, rfl, rfl, rfl, fun _ => rfl, by simp, by simp [steps]⟩
  values p v hp := ⟨v.parent, hp⟩
  valueDecls p d hp := by simpa [lastOr] using hp
  types p t hp := ⟨t.parent, hp⟩
  typeDecls p d hp := by simpa [lastOr] using hp
  fields p f hp := ⟨f.parent, hp⟩
  embeds p e hp := ⟨e.parent, hp⟩
  methods p m hp := ⟨m.parent, by simpa [lastOr, Signature.after_nil] using hp⟩
  funcs p f hp := ⟨f.parent, [], by simpa [lastOr, Signature.after_nil] using hp, .nil⟩
  args := .refl Unchanged.refl _
  templs := .refl Unchanged.refl _

theorem Built.cons {c : BuildCall} {cs : List BuildCall} {h g h' : Heap} (hc : c.exec h = .ok g)
    (s : BuildStep c h g) (b : Built cs g h') : Built (c :: cs) h h' where
  next := Nat.le_trans s.next b.next
  fresh := b.fresh
  files p f hp := by
    obtain ⟨f1, h1, h2, h3, h4, h5, h6, h7⟩ := s.files p f hp
    obtain ⟨f', es, g1, g2, g3, g4, g5, g6, g7⟩ := b.files p f1 h1
    have hk : ∀ k, f'.get k = lastOr (f.get k) ((c :: cs).filterMap (·.fileField? p k)) := by
      intro k; rw [g5, lastOr_cons, h5]
    rw [steps_cons hc]
    cases ha : c.addsTo p with
    | false =>
      refine ⟨f', es, g1, by rw [g2, h2], by rw [g3, h3], by rw [g4, h4], hk, by rw [g6, h6 ha], ?_⟩
      rw [List.filter_cons_of_neg (by simp [addsTo, ha])]
      exact g7
    | true =>
      obtain ⟨e, h8, h9⟩ := h7 ha
      refine ⟨f', e :: es, g1, by rw [g2, h2], by rw [g3, h3], by rw [g4, h4], hk, by simp [g6, h9], ?_⟩
      rw [List.filter_cons_of_pos (by simp [addsTo, ha])]
      exact .cons h8 g7
  values p v hp := by
    obtain ⟨par, h1⟩ := s.values p v hp
    obtain ⟨par', h2⟩ := b.values p _ h1
    exact ⟨par', by rw [h2, steps_cons hc]; simp only [lastOr_cons]⟩
  valueDecls p d hp := by
    rw [b.valueDecls p _ (s.valueDecls p d hp), filterMap_toList (BuildCall.spec? p)]
    simp only [lastOr_cons, List.append_assoc]
  types p t hp := by
    obtain ⟨par, h1⟩ := s.types p t hp
    obtain ⟨par', h2⟩ := b.types p _ h1
    exact ⟨par', by rw [h2]; simp only [lastOr_cons]⟩
  typeDecls p d hp := by
    rw [b.typeDecls p _ (s.typeDecls p d hp), filterMap_toList (BuildCall.typeSpec? p)]
    simp only [lastOr_cons, List.append_assoc]
  fields p t hp := by
    obtain ⟨par, h1⟩ := s.fields p t hp
    obtain ⟨par', h2⟩ := b.fields p _ h1
    exact ⟨par', by rw [h2]; simp only [lastOr_cons]⟩
  embeds p t hp := by
    obtain ⟨par, h1⟩ := s.embeds p t hp
    obtain ⟨par', h2⟩ := b.embeds p _ h1
    exact ⟨par', by rw [h2]; simp only [lastOr_cons]⟩
  methods p t hp := by
    obtain ⟨par, h1⟩ := s.methods p t hp
    obtain ⟨par', h2⟩ := b.methods p _ h1
    exact ⟨par', by rw [h2]; simp only [lastOr_cons, Signature.after_changed]⟩
  funcs p t hp := by
    obtain ⟨par, l, h1, h3, h4⟩ := s.funcs p t hp
    obtain ⟨par', l', h2, h5⟩ := b.funcs p _ h1
    refine ⟨par', l ++ l', ?_, ?_⟩
    · rw [h2]; simp only [lastOr_cons, Signature.after_changed, List.append_assoc]
    · rw [steps_cons hc]
      cases hk : code? p (c, h) with
      | none =>
        rw [h3 hk, List.filterMap_cons_none hk]
        exact h5
      | some k =>
        rw [List.filterMap_cons_some hk]
        exact ((h4 k hk).mono b.args b.templs).append h5
  args := s.args.trans Unchanged.trans b.args
  templs := s.templs.trans Unchanged.trans b.templs

theorem build_built : ∀ {cs : List BuildCall} {h h' : Heap}, h.Fresh → build cs h = .ok h' →
    Built cs h h' := by
  intro cs
  induction cs with
  | nil => intro h h' hf hb; cases hb; exact .nil hf
  | cons c cs ih =>
    intro h h' hf hb
    obtain ⟨g, h1, hb⟩ := bind_eq_ok hb
    have s := BuildCall.step hf h1
    exact .cons h1 s (ih s.fresh hb)

end Gopoet
