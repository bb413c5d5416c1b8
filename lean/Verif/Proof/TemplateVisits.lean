import Verif.Proof.SettledHeap
/-!
# Templates that a qualification pass visits

Whatever a visit of a template establishes and later steps keep holds, in the end, for every template in the
code of the file.
-/

namespace Gopoet
open Imports

/-- Initializers and function bodies are kept. -/
structure KeepsCode (h h' : Heap) : Prop where
  values : ∀ p c, h.values p = some c → ∃ c', h'.values p = some c' ∧ c'.init = c.init
  funcs : ∀ p f, h.funcs p = some f → ∃ f', h'.funcs p = some f' ∧ f'.code = f.code
  valueDecls : h'.valueDecls = h.valueDecls
  blocks : h'.blocks = h.blocks

theorem KeepsCode.refl (h : Heap) : KeepsCode h h :=
  ⟨fun _ c hc => ⟨c, hc, rfl⟩, fun _ c hc => ⟨c, hc, rfl⟩, rfl, rfl⟩

theorem KeepsCode.trans {h h' h'' : Heap} (a : KeepsCode h h') (b : KeepsCode h' h'') : KeepsCode h h'' := by
  refine ⟨fun p c hc => ?_, fun p c hc => ?_, b.valueDecls.trans a.valueDecls, b.blocks.trans a.blocks⟩
  · obtain ⟨c1, h1, e1⟩ := a.values p c hc
    obtain ⟨c2, h2, e2⟩ := b.values p c1 h1
    exact ⟨c2, h2, e2.trans e1⟩
  · obtain ⟨c1, h1, e1⟩ := a.funcs p c hc
    obtain ⟨c2, h2, e2⟩ := b.funcs p c1 h1
    exact ⟨c2, h2, e2.trans e1⟩

theorem QStep.keepsCode {h i h' i'} (a : QStep h i h' i') : KeepsCode h h' := by
  have r := KeepsCode.refl h
  cases a with
  | @value p c t t' _ hp ht hu =>
    refine ⟨fun q x hq => ?_, r.funcs, rfl, rfl⟩
    by_cases hqp : q = p
    · subst hqp
      rw [hp] at hq
      obtain rfl := Option.some.inj hq
      exact ⟨_, upd_same .., rfl⟩
    · exact ⟨x, (upd_ne _ _ hqp).trans hq, rfl⟩
  | @func p f s _ hp hu =>
    refine ⟨r.values, fun q x hq => ?_, rfl, rfl⟩
    by_cases hqp : q = p
    · subst hqp
      rw [hp] at hq
      obtain rfl := Option.some.inj hq
      exact ⟨_, upd_same .., rfl⟩
    · exact ⟨x, (upd_ne _ _ hqp).trans hq, rfl⟩
  | _ => exact ⟨r.values, r.funcs, rfl, rfl⟩

theorem Later.keepsCode {h i h' i'} (a : Later h i h' i') : KeepsCode h h' := by
  induction a with
  | refl => exact .refl _
  | step _ s ih => exact ih.trans s.keepsCode
  | file _ s ih => exact ih.trans ⟨fun _ c hc => ⟨c, hc, rfl⟩, fun _ c hc => ⟨c, hc, rfl⟩, rfl, rfl⟩

/-- `I` holds before and throughout, and `V` of a template after it is visited. -/
structure Visits (I : Heap → Imports → Prop) (V : Heap → Imports → Ptr → Prop) : Prop where
  keep : ∀ {h i h' i'}, Later h i h' i' → I h i → I h' i'
  later : ∀ {h i h' i' q}, Later h i h' i' → I h i → V h i q → V h' i' q
  visit : ∀ {h i q t d j}, I h i → h.templs q = some t → qualifyTemplateData h t.data i = (.ok d, j) →
    V { h with templs := upd h.templs q { t with data := d } } j q

variable {I : Heap → Imports → Prop} {V : Heap → Imports → Ptr → Prop}

theorem forEach_visits {α : Type} {f : α → QM Unit} {P : Heap → Imports → α → Prop}
    (keep : ∀ {h i h' i'}, Later h i h' i' → I h i → I h' i')
    (hsteps : ∀ a, QM.Steps (f a))
    (hlater : ∀ a h i h' i', Later h i h' i' → I h i → P h i a → P h' i' a)
    (hpost : ∀ a h i h' i', I h i → f a h i = (.ok (), h', i') → P h' i' a) :
    ∀ {l : List α} {h i h' i'}, I h i → QM.forEach f l h i = (.ok (), h', i') → ∀ a ∈ l, P h' i' a
  | [], _, _, _, _, _, _ => by simp
  | a :: l, h, i, h', i', hi, hx => by
    rw [QM.forEach] at hx
    obtain ⟨u, h1, i1, e1, e2⟩ := QM.bind_eq_ok hx
    have l1 := (hsteps a).later e1
    have l2 := (QM.Steps.forEach hsteps l).later e2
    intro b hb
    rcases List.mem_cons.1 hb with rfl | hb
    · exact hlater _ _ _ _ _ l2 (keep l1 hi) (hpost _ _ _ _ _ hi e1)
    · exact forEach_visits keep hsteps hlater hpost (keep l1 hi) e2 b hb

/-- The template in the element of a code block, if it is one. -/
def CodeElemV (V : Heap → Imports → Ptr → Prop) (h : Heap) (i : Imports) (e : CodeElem) : Prop :=
  ∀ q, e = .templ q → V h i q

/-- All templates in a code block. -/
def CodeV (V : Heap → Imports → Ptr → Prop) (h : Heap) (i : Imports) (cb : CodeBlock) : Prop :=
  ∀ e ∈ cb, CodeElemV V h i e

theorem CodeV.later (a : Visits I V) {h i h' i'} (l : Later h i h' i') (hi : I h i) {cb} (hc : CodeV V h i cb) :
    CodeV V h' i' cb := fun e he q hq => a.later l hi (hc e he q hq)

theorem code_visits (a : Visits I V) {cb : CodeBlock} {h i h' i'} (hi : I h i)
    (hx : qualifyCode cb h i = (.ok (), h', i')) : CodeV V h' i' cb := by
  refine forEach_visits (P := CodeElemV V) a.keep steps_codeElem (fun e h i h' i' l hi hp q hq => a.later l hi (hp q hq))
    (fun e h i h' i' hi hx => ?_) hi hx
  rintro q rfl
  obtain ⟨t, e1, hx⟩ := QM.bind_read_eq_ok hx
  obtain ⟨d, i2, e2, hx⟩ := QM.bind_lift_eq_ok hx
  simp only [QM.modify, Prod.mk.injEq] at hx
  obtain ⟨-, rfl, rfl⟩ := hx
  exact a.visit hi e1 e2

/-- All templates in the initializer of a constant or variable. -/
def ValueV (V : Heap → Imports → Ptr → Prop) (h : Heap) (i : Imports) (p : Ptr) : Prop :=
  ∃ c, h.values p = some c ∧ ∀ b, c.init = some b → ∃ cb, h.blocks b = some cb ∧ CodeV V h i cb

theorem ValueV.later (a : Visits I V) {h i h' i'} (l : Later h i h' i') (hi : I h i) {p} (hv : ValueV V h i p) :
    ValueV V h' i' p := by
  obtain ⟨c, h1, h2⟩ := hv
  obtain ⟨c', h3, e⟩ := l.keepsCode.values p c h1
  refine ⟨c', h3, fun b hb => ?_⟩
  obtain ⟨cb, h4, h5⟩ := h2 b (e ▸ hb)
  exact ⟨cb, by rw [l.keepsCode.blocks]; exact h4, h5.later a l hi⟩

theorem value_visits (a : Visits I V) {fuel p h i h' i'} (hi : I h i)
    (hx : qualifyValue fuel p h i = (.ok (), h', i')) : ValueV V h' i' p := by
  rw [qualifyValue] at hx
  obtain ⟨c, e1, hx⟩ := QM.bind_read_eq_ok hx
  obtain ⟨t', h2, i2, e2, hx⟩ := QM.bind_eq_ok hx
  obtain ⟨_, h3, i3, e3, hx⟩ := QM.bind_eq_ok hx
  simp only [QM.modify, Prod.mk.injEq] at e3
  obtain ⟨-, e3, e3'⟩ := e3
  have hl : Later h i h3 i3 := by
    cases ht : c.type with
    | nil =>
      simp only [ht, qualifyTypeRef, QM.ret, Prod.mk.injEq, Outcome.ok.injEq] at e2
      obtain ⟨rfl, rfl, rfl⟩ := e2
      rw [← ht, upd_eq_self e1] at e3
      subst e3 e3'
      exact .refl _ _
    | name t =>
      simp only [ht, qualifyTypeRef] at e2
      obtain ⟨d, i4, e4, e2⟩ := QM.bind_lift_eq_ok e2
      simp only [QM.ret, Prod.mk.injEq, Outcome.ok.injEq] at e2
      obtain ⟨rfl, rfl, rfl⟩ := e2
      subst e3 e3'
      exact .step (.refl _ _) (.value e1 ht e4)
    | spec q =>
      simp only [ht, qualifyTypeRef] at e2
      obtain ⟨d, h4, i4, e4, e2⟩ := QM.bind_eq_ok e2
      simp only [QM.ret, Prod.mk.injEq, Outcome.ok.injEq] at e2
      obtain ⟨rfl, rfl, rfl⟩ := e2
      have hv := (specOnly_spec fuel q h i).values
      rw [e4] at hv
      have hc : h4.values p = some c := by rw [show h4.values = h.values from hv]; exact e1
      have hself : { c with type := TypeRef.spec q } = c := by rw [← ht]
      rw [hself, upd_eq_self hc] at e3
      subst e3 e3'
      exact (steps_spec fuel q).later e4
  have hc3 : h3.values p = some { c with type := t' } := by subst e3; exact upd_same ..
  have hi3 := a.keep hl hi
  cases hb : c.init with
  | none =>
    simp only [hb, QM.ret, Prod.mk.injEq] at hx
    obtain ⟨-, rfl, rfl⟩ := hx
    exact ⟨_, hc3, by simp [hb]⟩
  | some b =>
    simp only [hb] at hx
    obtain ⟨cb, e5, hx⟩ := QM.bind_read_eq_ok hx
    have l := (steps_code cb).later hx
    obtain ⟨c', k1, k2⟩ := l.keepsCode.values p _ hc3
    refine ⟨c', k1, fun b' hb' => ?_⟩
    rw [k2] at hb'
    obtain rfl : b = b' := by simpa [hb] using hb'
    exact ⟨cb, by rw [l.stays.blocks]; exact e5, code_visits a hi3 hx⟩

/-- All templates in the body of a function. -/
def FuncV (V : Heap → Imports → Ptr → Prop) (h : Heap) (i : Imports) (p : Ptr) : Prop :=
  ∃ f, h.funcs p = some f ∧ CodeV V h i f.code

theorem FuncV.later (a : Visits I V) {h i h' i'} (l : Later h i h' i') (hi : I h i) {p} (hv : FuncV V h i p) :
    FuncV V h' i' p := by
  obtain ⟨c, h1, h2⟩ := hv
  obtain ⟨c', h3, e⟩ := l.keepsCode.funcs p c h1
  exact ⟨c', h3, by rw [e]; exact h2.later a l hi⟩

theorem func_visits (a : Visits I V) {p h i h' i'} (hi : I h i)
    (hx : qualifyFunc p h i = (.ok (), h', i')) : FuncV V h' i' p := by
  rw [qualifyFunc] at hx
  obtain ⟨f, e1, hx⟩ := QM.bind_read_eq_ok hx
  obtain ⟨s, i2, e2, hx⟩ := QM.bind_lift_eq_ok hx
  obtain ⟨_, h3, i3, e3, hx⟩ := QM.bind_eq_ok hx
  simp only [QM.modify, Prod.mk.injEq] at e3
  obtain ⟨-, e3, rfl⟩ := e3
  have hf3 : h3.funcs p = some { f with signature := s } := by subst e3; exact upd_same ..
  have l := (steps_code f.code).later hx
  obtain ⟨f', h4, e4⟩ := l.keepsCode.funcs p _ hf3
  refine ⟨f', h4, ?_⟩
  rw [e4]
  refine code_visits a (a.keep (.step (.refl _ _) ?_) hi) hx
  subst e3
  exact .func e1 e2

/-- All templates in an element of a file. -/
def ElemV (V : Heap → Imports → Ptr → Prop) (h : Heap) (i : Imports) : FileElem → Prop
  | .values p => ∃ d, h.valueDecls p = some d ∧ ∀ q ∈ d.specs, ValueV V h i q
  | .types _ => True
  | .func p => FuncV V h i p

theorem ElemV.later (a : Visits I V) {h i h' i'} (l : Later h i h' i') (hi : I h i) {e} (hv : ElemV V h i e) :
    ElemV V h' i' e := by
  cases e with
  | values p =>
    obtain ⟨d, h1, h2⟩ := hv
    exact ⟨d, by rw [l.stays.valueDecls]; exact h1, fun q hq => (h2 q hq).later a l hi⟩
  | types p => trivial
  | func p => exact FuncV.later a l hi hv

theorem ElemV.templateIn {h i e} (hv : ElemV V h i e) {q} (hq : TemplateIn h e q) : V h i q := by
  cases hq with
  | init g1 g2 g3 g4 g5 g6 =>
    obtain ⟨d, k0, k⟩ := hv
    rw [k0] at g1
    obtain rfl := Option.some.inj g1
    obtain ⟨c, k1, k2⟩ := k _ g2
    rw [k1] at g3
    obtain rfl := Option.some.inj g3
    obtain ⟨cb, k3, k4⟩ := k2 _ g4
    rw [k3] at g5
    obtain rfl := Option.some.inj g5
    exact k4 _ g6 _ rfl
  | func g1 g2 =>
    obtain ⟨f, k1, k2⟩ := hv
    rw [k1] at g1
    obtain rfl := Option.some.inj g1
    exact k2 _ g2 _ rfl

theorem elem_visits (a : Visits I V) {fuel} {e : FileElem} {h i h' i'} (hi : I h i)
    (hx : e.qualify fuel h i = (.ok (), h', i')) : ElemV V h' i' e := by
  cases e with
  | values p =>
    obtain ⟨d, e1, hx⟩ := QM.bind_read_eq_ok hx
    have l := (QM.Steps.forEach (steps_value fuel) d.specs).later hx
    exact ⟨d, by rw [l.stays.valueDecls]; exact e1,
      forEach_visits (P := ValueV V) a.keep (steps_value fuel) (fun _ _ _ _ _ l hi => ValueV.later a l hi)
        (fun _ _ _ _ _ hi hx => value_visits a hi hx) hi hx⟩
  | types p => trivial
  | func p => exact func_visits a hi hx

/-- After a qualification that succeeds, all templates in the file have been visited. -/
theorem qualifyFile_visits (a : Visits I V) {fuel p h h' f f'} (hx : qualifyFile fuel p h = (.ok (), h'))
    (hf : h.files p = some f) (hf' : h'.files p = some f') (hi : I h f.imports) {e} (he : e ∈ f'.elements) {q}
    (hq : TemplateIn h' e q) : V h' f'.imports q := by
  rw [qualifyFile] at hx
  simp only [hf] at hx
  rcases hq' : QM.forEach (FileElem.qualify fuel) f.elements h f.imports with ⟨o, h1, i1⟩
  rw [hq'] at hx
  simp only [Prod.mk.injEq] at hx
  obtain ⟨rfl, rfl⟩ := hx
  dsimp only at hf'
  rw [upd_same] at hf'
  obtain rfl := Option.some.inj hf'
  have l := (steps_fileElems fuel f.elements).later hq'
  have hsame : ∀ q, (upd h1.files p { f with imports := i1 } q).map (·.package) =
      (h1.files q).map (·.package) := by
    intro q
    by_cases hqp : q = p
    · subst hqp
      have hfiles := (steps_fileElems fuel f.elements h f.imports).files
      rw [hq'] at hfiles
      rw [show h1.files = h.files from hfiles, hf]
      simp [GoFile.package, l.ext.own]
    · rw [upd_ne _ _ hqp]
  have := forEach_visits (P := ElemV V) a.keep (steps_fileElem fuel) (fun _ _ _ _ _ l hi => ElemV.later a l hi)
      (fun _ _ _ _ _ hi hx => elem_visits a hi hx) hi hq' e he
  exact (this.later a (.file (.refl _ _) hsame) (a.keep l hi)).templateIn hq

/-- Later states have the same templates in the elements. -/
theorem ElemSettled.templateIn {fuel h i h' i' e q} (he : ElemSettled fuel h i e) (l : Later h i h' i')
    (hq : TemplateIn h' e q) : TemplateIn h e q := by
  cases hq with
  | init g1 g2 g3 g4 g5 g6 =>
    rw [l.stays.valueDecls] at g1
    rw [l.stays.blocks] at g5
    obtain ⟨d, k0, k⟩ := he
    rw [k0] at g1
    obtain rfl := Option.some.inj g1
    obtain ⟨c, hv, -⟩ := k _ g2
    obtain ⟨c', k1, k2⟩ := l.keepsCode.values _ _ hv
    rw [k1] at g3
    obtain rfl := Option.some.inj g3
    exact .init k0 g2 hv (k2 ▸ g4) g5 g6
  | func g1 g2 =>
    obtain ⟨f, hv, -⟩ := he
    obtain ⟨c', k1, k2⟩ := l.keepsCode.funcs _ _ hv
    rw [k1] at g1
    obtain rfl := Option.some.inj g1
    exact .func hv (k2 ▸ g2)

end Gopoet
