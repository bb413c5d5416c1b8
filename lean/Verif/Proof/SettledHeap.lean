import Verif.Proof.SettledSpecs
import Verif.Proof.GoTypesLemmas
import Verif.Spec.Written
/-! Files: qualifying the elements of a file again does nothing, and all packages they mention are
named as in the imports. -/

namespace Gopoet
open Imports

/-! ### What stays the same -/

/-- Names and parents of specs and packages of files are kept. -/
structure Stays (h h' : Heap) : Prop where
  files : ∀ p f, h.files p = some f → ∃ f', h'.files p = some f' ∧ f'.package = f.package
  types : ∀ p t, h.types p = some t → ∃ t', h'.types p = some t' ∧ t'.name = t.name ∧ t'.parent = t.parent
  methods : ∀ p m, h.methods p = some m → ∃ m', h'.methods p = some m' ∧ m'.name = m.name ∧
    m'.parent = m.parent
  funcs : ∀ p f, h.funcs p = some f → ∃ f', h'.funcs p = some f' ∧ f'.name = f.name ∧
    f'.receiver = f.receiver ∧ f'.parent = f.parent
  valueDecls : h'.valueDecls = h.valueDecls
  typeDecls : h'.typeDecls = h.typeDecls
  blocks : h'.blocks = h.blocks

theorem Stays.refl (h : Heap) : Stays h h :=
  ⟨fun _ f hf => ⟨f, hf, rfl⟩, fun _ t ht => ⟨t, ht, rfl, rfl⟩, fun _ t ht => ⟨t, ht, rfl, rfl⟩,
    fun _ t ht => ⟨t, ht, rfl, rfl, rfl⟩, rfl, rfl, rfl⟩

theorem Stays.trans {h h' h'' : Heap} (a : Stays h h') (b : Stays h' h'') : Stays h h'' := by
  refine ⟨fun p f hf => ?_, fun p t ht => ?_, fun p t ht => ?_, fun p t ht => ?_,
    b.valueDecls.trans a.valueDecls, b.typeDecls.trans a.typeDecls, b.blocks.trans a.blocks⟩
  · obtain ⟨f1, h1, e1⟩ := a.files p f hf
    obtain ⟨f2, h2, e2⟩ := b.files p f1 h1
    exact ⟨f2, h2, e2.trans e1⟩
  · obtain ⟨f1, h1, e1, e1'⟩ := a.types p t ht
    obtain ⟨f2, h2, e2, e2'⟩ := b.types p f1 h1
    exact ⟨f2, h2, e2.trans e1, e2'.trans e1'⟩
  · obtain ⟨f1, h1, e1, e1'⟩ := a.methods p t ht
    obtain ⟨f2, h2, e2, e2'⟩ := b.methods p f1 h1
    exact ⟨f2, h2, e2.trans e1, e2'.trans e1'⟩
  · obtain ⟨f1, h1, e1, e1', e1''⟩ := a.funcs p t ht
    obtain ⟨f2, h2, e2, e2', e2''⟩ := b.funcs p f1 h1
    exact ⟨f2, h2, e2.trans e1, e2'.trans e1', e2''.trans e1''⟩

theorem QStep.stays {h i h' i'} (a : QStep h i h' i') : Stays h h' := by
  have r := Stays.refl h
  cases a with
  | @type p ts u _ ht _ =>
    refine ⟨r.files, fun q t hq => ?_, r.methods, r.funcs, rfl, rfl, rfl⟩
    by_cases hqp : q = p
    · subst hqp
      rw [ht] at hq
      obtain rfl := Option.some.inj hq
      exact ⟨_, upd_same .., rfl, rfl⟩
    · exact ⟨t, (upd_ne _ _ hqp).trans hq, rfl, rfl⟩
  | @method p ts u _ ht _ =>
    refine ⟨r.files, r.types, fun q t hq => ?_, r.funcs, rfl, rfl, rfl⟩
    by_cases hqp : q = p
    · subst hqp
      rw [ht] at hq
      obtain rfl := Option.some.inj hq
      exact ⟨_, upd_same .., rfl, rfl⟩
    · exact ⟨t, (upd_ne _ _ hqp).trans hq, rfl, rfl⟩
  | @func p ts u _ ht _ =>
    refine ⟨r.files, r.types, r.methods, fun q t hq => ?_, rfl, rfl, rfl⟩
    by_cases hqp : q = p
    · subst hqp
      rw [ht] at hq
      obtain rfl := Option.some.inj hq
      exact ⟨_, upd_same .., rfl, rfl, rfl⟩
    · exact ⟨t, (upd_ne _ _ hqp).trans hq, rfl, rfl, rfl⟩
  | _ => exact ⟨r.files, r.types, r.methods, r.funcs, rfl, rfl, rfl⟩

/-- Steps of a qualification pass, and changes to files that keep their packages. -/
inductive Later : Heap → Imports → Heap → Imports → Prop
  | refl (h i) : Later h i h i
  | step {h i h' i' h'' i''} : Later h i h' i' → QStep h' i' h'' i'' → Later h i h'' i''
  | file {h i h' i' files} : Later h i h' i' →
      (∀ p, (files p).map (·.package) = (h'.files p).map (·.package)) → Later h i { h' with files } i'

theorem files_samePackages {f f' : Ptr → Option GoFile}
    (h : ∀ p, (f' p).map (·.package) = (f p).map (·.package)) (p : Ptr) (g : GoFile) (hg : f p = some g) :
    ∃ g', f' p = some g' ∧ g'.package = g.package := by
  have hp := h p
  rw [hg] at hp
  cases hf : f' p with
  | none => simp [hf] at hp
  | some g' => exact ⟨g', rfl, by simpa [hf] using hp⟩

theorem Later.trans {h i h' i' h'' i''} (a : Later h i h' i') (b : Later h' i' h'' i'') :
    Later h i h'' i'' := by
  induction b with
  | refl => exact a
  | step _ s ih => exact .step ih s
  | file _ s ih => exact .file ih s

theorem QSteps.later {h i h' i'} (a : QSteps h i h' i') : Later h i h' i' := by
  induction a with
  | refl => exact .refl _ _
  | step _ s ih => exact .step ih s

theorem Later.stays {h i h' i'} (a : Later h i h' i') : Stays h h' := by
  induction a with
  | refl => exact .refl _
  | step _ s ih => exact ih.trans s.stays
  | file _ s ih =>
    have r := Stays.refl
    exact ih.trans ⟨files_samePackages s, (r _).types, (r _).methods, (r _).funcs, rfl, rfl, rfl⟩

theorem QStep.ext {h i h' i'} (a : QStep h i h' i') : Ext i i' := a.evolves.ext

theorem Later.ext {h i h' i'} (a : Later h i h' i') : Ext i i' := by
  induction a with
  | refl => exact Ext.refl _
  | step _ s ih => exact ih.trans s.ext
  | file _ _ ih => exact ih

theorem QStep.specsStay {h i h' i'} (a : QStep h i h' i') : SpecsStay h h' := by
  refine ⟨fun r x hx => ?_, a.stays.files⟩
  cases r with
  | value p =>
    simp only [SpecRef.parent, deref] at hx ⊢
    cases a with
    | @value q ts _ _ _ ht _ _ =>
      by_cases hqp : p = q
      · subst hqp
        rw [ht] at hx
        dsimp only
        rw [upd_same]
        exact hx
      · dsimp only
        rw [upd_ne _ _ hqp]
        exact hx
    | _ => exact hx
  | type p =>
    simp only [SpecRef.parent, deref] at hx ⊢
    cases a with
    | @type q ts u _ ht _ =>
      by_cases hqp : p = q
      · subst hqp
        rw [ht] at hx
        dsimp only
        rw [upd_same]
        exact hx
      · dsimp only
        rw [upd_ne _ _ hqp]
        exact hx
    | _ => exact hx
  | func p =>
    simp only [SpecRef.parent, deref] at hx ⊢
    cases a with
    | @func q ts u _ ht _ =>
      by_cases hqp : p = q
      · subst hqp
        rw [ht] at hx
        dsimp only
        rw [upd_same]
        exact hx
      · dsimp only
        rw [upd_ne _ _ hqp]
        exact hx
    | _ => exact hx

theorem Later.specsStay {h i h' i'} (a : Later h i h' i') : SpecsStay h h' := by
  induction a with
  | refl => exact .refl _
  | step _ s ih => exact ih.trans s.specsStay
  | file _ s ih => exact ih.trans ⟨fun _ _ hx => hx, files_samePackages s⟩

/-- A property that later states keep. -/
theorem Later.induct {P : Heap → Imports → Prop}
    (hstep : ∀ h i h' i', QStep h i h' i' → P h i → P h' i')
    (hfile : ∀ h i files, (∀ p, (files p).map (·.package) = (h.files p).map (·.package)) →
      P h i → P { h with files } i)
    {h i h' i'} (a : Later h i h' i') (hp : P h i) : P h' i' := by
  induction a with
  | refl => exact hp
  | step _ s ih => exact hstep _ _ _ _ s ih
  | file _ s ih => exact hfile _ _ _ s ih

/-! ### Settled entries of the heap are not changed -/

theorem ensureTypeImported_same {t u : TypeName} {i j : Imports} (ht : TypeSettled i t)
    (h : ensureTypeImported t i = (.ok u, j)) : u = t := by
  rw [ensureTypeImported_of_settled ht] at h
  simp only [Prod.mk.injEq, Outcome.ok.injEq] at h
  exact h.1.symm

theorem ensureAllTypesImported_same {t u : Signature} {i j : Imports} (ht : SigSettled i t)
    (h : ensureAllTypesImported t i = (.ok u, j)) : u = t := by
  rw [ensureAllTypesImported_of_settled ht] at h
  simp only [Prod.mk.injEq, Outcome.ok.injEq] at h
  exact h.1.symm

theorem ensureImported_same {t u : Symbol} {i j : Imports} (ht : QPkg i t.package)
    (h : ensureImported t i = (.ok u, j)) : u = t := by
  rw [ensureImported_of_settled ht] at h
  simp only [Prod.mk.injEq, Outcome.ok.injEq] at h
  exact h.1.symm

theorem Later.type {h i h' i'} (a : Later h i h' i') {p ts} (ht : h.types p = some ts)
    (hs : TypeSettled i ts.underlying) : h'.types p = some ts ∧ TypeSettled i' ts.underlying := by
  refine a.induct (P := fun h i => h.types p = some ts ∧ TypeSettled i ts.underlying)
    (fun h i h' i' s hp => ⟨?_, s.ext.typeSettled hp.2⟩) (fun _ _ _ _ hp => hp) ⟨ht, hs⟩
  cases s with
  | @type q ts' u _ hq hu =>
    by_cases hpq : p = q
    · subst hpq
      rw [hp.1] at hq
      obtain rfl := Option.some.inj hq
      rw [ensureTypeImported_same hp.2 hu]
      exact upd_same ..
    · exact (upd_ne _ _ hpq).trans hp.1
  | _ => exact hp.1

theorem Later.field {h i h' i'} (a : Later h i h' i') {p f} (ht : h.fields p = some f)
    (hs : ∀ t, f.type = .name t → TypeSettled i t) :
    h'.fields p = some f ∧ ∀ t, f.type = .name t → TypeSettled i' t := by
  refine a.induct (P := fun h i => h.fields p = some f ∧ ∀ t, f.type = .name t → TypeSettled i t)
    (fun h i h' i' s hp => ⟨?_, fun t ht => s.ext.typeSettled (hp.2 t ht)⟩) (fun _ _ _ _ hp => hp) ⟨ht, hs⟩
  cases s with
  | @field q ts' t u _ hq ht hu =>
    by_cases hpq : p = q
    · subst hpq
      rw [hp.1] at hq
      obtain rfl := Option.some.inj hq
      rw [ensureTypeImported_same (hp.2 _ ht) hu, ← ht]
      exact upd_same ..
    · exact (upd_ne _ _ hpq).trans hp.1
  | _ => exact hp.1

theorem Later.value {h i h' i'} (a : Later h i h' i') {p f} (ht : h.values p = some f)
    (hs : ∀ t, f.type = .name t → TypeSettled i t) :
    h'.values p = some f ∧ ∀ t, f.type = .name t → TypeSettled i' t := by
  refine a.induct (P := fun h i => h.values p = some f ∧ ∀ t, f.type = .name t → TypeSettled i t)
    (fun h i h' i' s hp => ⟨?_, fun t ht => s.ext.typeSettled (hp.2 t ht)⟩) (fun _ _ _ _ hp => hp) ⟨ht, hs⟩
  cases s with
  | @value q ts' t u _ hq ht hu =>
    by_cases hpq : p = q
    · subst hpq
      rw [hp.1] at hq
      obtain rfl := Option.some.inj hq
      rw [ensureTypeImported_same (hp.2 _ ht) hu, ← ht]
      exact upd_same ..
    · exact (upd_ne _ _ hpq).trans hp.1
  | _ => exact hp.1

theorem Later.embed {h i h' i'} (a : Later h i h' i') {p e} (ht : h.embeds p = some e)
    (hs : QPkg i e.type.package) : h'.embeds p = some e ∧ QPkg i' e.type.package := by
  refine a.induct (P := fun h i => h.embeds p = some e ∧ QPkg i e.type.package)
    (fun h i h' i' s hp => ⟨?_, s.ext.qpkg hp.2⟩) (fun _ _ _ _ hp => hp) ⟨ht, hs⟩
  cases s with
  | @embed q ts' u _ hq hu =>
    by_cases hpq : p = q
    · subst hpq
      rw [hp.1] at hq
      obtain rfl := Option.some.inj hq
      rw [ensureImported_same hp.2 hu]
      exact upd_same ..
    · exact (upd_ne _ _ hpq).trans hp.1
  | _ => exact hp.1

theorem Later.method {h i h' i'} (a : Later h i h' i') {p m} (ht : h.methods p = some m)
    (hs : SigSettled i m.signature) : h'.methods p = some m ∧ SigSettled i' m.signature := by
  refine a.induct (P := fun h i => h.methods p = some m ∧ SigSettled i m.signature)
    (fun h i h' i' s hp => ⟨?_, s.ext.sigSettled hp.2⟩) (fun _ _ _ _ hp => hp) ⟨ht, hs⟩
  cases s with
  | @method q ts' u _ hq hu =>
    by_cases hpq : p = q
    · subst hpq
      rw [hp.1] at hq
      obtain rfl := Option.some.inj hq
      rw [ensureAllTypesImported_same hp.2 hu]
      exact upd_same ..
    · exact (upd_ne _ _ hpq).trans hp.1
  | _ => exact hp.1

theorem Later.func {h i h' i'} (a : Later h i h' i') {p m} (ht : h.funcs p = some m)
    (hs : SigSettled i m.signature) : h'.funcs p = some m ∧ SigSettled i' m.signature := by
  refine a.induct (P := fun h i => h.funcs p = some m ∧ SigSettled i m.signature)
    (fun h i h' i' s hp => ⟨?_, s.ext.sigSettled hp.2⟩) (fun _ _ _ _ hp => hp) ⟨ht, hs⟩
  cases s with
  | @func q ts' u _ hq hu =>
    by_cases hpq : p = q
    · subst hpq
      rw [hp.1] at hq
      obtain rfl := Option.some.inj hq
      rw [ensureAllTypesImported_same hp.2 hu]
      exact upd_same ..
    · exact (upd_ne _ _ hpq).trans hp.1
  | _ => exact hp.1

theorem Later.templ {h i h' i'} (a : Later h i h' i') {p t} (ht : h.templs p = some t)
    (hs : TemplDone h i t.data) : ∃ t', h'.templs p = some t' ∧ TemplDone h' i' t'.data := by
  refine a.induct (P := fun h i => ∃ t, h.templs p = some t ∧ TemplDone h i t.data)
    (fun h i h' i' s hp => ?_) (fun h i files hf hp => ?_) ⟨t, ht, hs⟩
  · obtain ⟨t, ht, hd⟩ := hp
    have hd' := hd.later s.specsStay s.ext
    cases s with
    | @templ q ts' u _ hq hu =>
      by_cases hpq : p = q
      · subst hpq
        exact ⟨_, upd_same .., (qualifyTemplateData_done hu).1.later (QStep.templ hq hu).specsStay (.refl _)⟩
      · exact ⟨t, (upd_ne _ _ hpq).trans ht, hd'⟩
    | _ => exact ⟨t, ht, hd'⟩
  · obtain ⟨t, ht, hd⟩ := hp
    exact ⟨t, ht, hd.later (h := h) (h' := { h with files }) ⟨fun _ _ hx => hx, files_samePackages hf⟩ (.refl _)⟩

/-! ### Arguments -/

/-- What a method argument stands for. -/
def argMethod (h : Heap) : Arg → Outcome SymbolOrMethodRef
  | .ifaceMethod p => (deref h.methods p).bind fun m => (m.toMethodRef h).bind fun m => .ok (.method m)
  | .func p => (deref h.funcs p).bind (·.toSymbol h)
  | .goObject o _ => symbolForGoObject o
  | _ => .panic

/-- The argument is as qualification leaves it. -/
def ArgSettled (h : Heap) (i : Imports) : Arg → Prop
  | .package p => NamedIn i p
  | .packagePtr p => NamedIn i p
  | .symbol s => QPkg i s.package
  | .mref m => QPkg i m.type.package
  | .mrefPtr m => QPkg i m.type.package
  | .sigPtr s => SigSettled i s
  | .typeName t => TypeSettled i t
  | .ifaceMethod p => ∃ m, argMethod h (.ifaceMethod p) = .ok (.method m) ∧ QPkg i m.type.package
  | .func p => ∃ m, argMethod h (.func p) = .ok (.method m) ∧ QPkg i m.type.package
  | .goObject o s => ∃ m, argMethod h (.goObject o s) = .ok (.method m) ∧ QPkg i m.type.package
  | .symbolPtr _ | .sig _ | .value _ | .typeSpec _ | .reflectType _ _ | .goType _ _ | .goPackage _ _ => False
  | .str _ | .int _ | .ifaceEmbed _ | .field _ | .other _ => True

theorem deref_ok {α} {m : Ptr → Option α} {p : Ptr} {a : α} (h : m p = some a) : deref m p = .ok a := by
  simp [deref, h]

theorem Stays.packageAt {h h' : Heap} (s : Stays h h') {p : Ptr} {pk : Package}
    (hp : packageAt h p = .ok pk) : packageAt h' p = .ok pk := by
  unfold Gopoet.packageAt at *
  obtain ⟨f, h1, h2⟩ := bind_eq_ok hp
  obtain ⟨f', h3, h4⟩ := s.files p f (deref_eq_ok h1)
  rw [deref_ok h3]
  show Outcome.ok f'.package = _
  rw [h4]
  exact h2

theorem Stays.typeSymbol {h h' : Heap} (s : Stays h h') {t t' : TypeSpec} (e1 : t'.name = t.name)
    (e2 : t'.parent = t.parent) {x : Symbol} (hp : t.toSymbol h = .ok x) : t'.toSymbol h' = .ok x := by
  unfold TypeSpec.toSymbol at *
  rw [e1, e2]
  by_cases hn : t.name = []
  · rw [if_pos hn] at hp; simp at hp
  · rw [if_neg hn] at hp ⊢
    cases hpar : t.parent with
    | none => simp [hpar] at hp
    | some f =>
      simp only [hpar] at hp ⊢
      obtain ⟨pk, h1, h2⟩ := bind_eq_ok hp
      rw [s.packageAt h1]
      exact h2

theorem Stays.argMethod {h h' : Heap} (s : Stays h h') {a : Arg} {r : SymbolOrMethodRef}
    (hp : argMethod h a = .ok r) : argMethod h' a = .ok r := by
  cases a <;> simp only [Gopoet.argMethod, reduceCtorEq] at hp ⊢
  case ifaceMethod p =>
    obtain ⟨m, h1, h2⟩ := bind_eq_ok hp
    obtain ⟨m', h3, e1, e2⟩ := s.methods p m (deref_eq_ok h1)
    rw [deref_ok h3]
    obtain ⟨mr, h4, h5⟩ := bind_eq_ok h2
    have : m'.toMethodRef h' = .ok mr := by
      unfold InterfaceMethod.toMethodRef at *
      rw [e1, e2]
      cases hpar : m.parent with
      | none => simp [hpar] at h4
      | some q =>
        simp only [hpar] at h4 ⊢
        obtain ⟨t, h6, h7⟩ := bind_eq_ok h4
        obtain ⟨x, h8, h9⟩ := bind_eq_ok h7
        obtain ⟨t', h10, e3, e4⟩ := s.types q t (deref_eq_ok h6)
        rw [deref_ok h10]
        show (t'.toSymbol h').bind _ = _
        rw [s.typeSymbol e3 e4 h8]
        exact h9
    show (m'.toMethodRef h').bind _ = _
    rw [this]
    exact h5
  case func p =>
    obtain ⟨m, h1, h2⟩ := bind_eq_ok hp
    obtain ⟨m', h3, e1, e2, e3⟩ := s.funcs p m (deref_eq_ok h1)
    rw [deref_ok h3]
    show m'.toSymbol h' = _
    unfold FuncSpec.toSymbol at *
    rw [e1, e2, e3]
    cases hpar : m.parent with
    | none => simp [hpar] at h2
    | some q =>
      simp only [hpar] at h2 ⊢
      obtain ⟨pk, h4, h5⟩ := bind_eq_ok h2
      rw [s.packageAt h4]
      exact h5
  case goObject => exact hp

theorem ArgSettled.later {h i h' i'} (s : Stays h h') (e : Ext i i') {a : Arg} (ha : ArgSettled h i a) :
    ArgSettled h' i' a := by
  cases a <;> simp only [ArgSettled] at ha ⊢
  case package | packagePtr => exact e.named ha
  case symbol | mref | mrefPtr => exact e.qpkg ha
  case sigPtr => exact e.sigSettled ha
  case typeName => exact e.typeSettled ha
  case ifaceMethod | func | goObject =>
    obtain ⟨m, h1, h2⟩ := ha
    exact ⟨m, s.argMethod h1, e.qpkg h2⟩

theorem symOrRef_of_settled {orig : Arg} {m : MethodReference} {i : Imports} (h : QPkg i m.type.package) :
    qualifySymOrRef orig (.method m) i = (.ok orig, i) := by
  rw [qualifySymOrRef, IM.bind_ok (ensureImported_of_settled h)]
  simp

theorem argMethod_lift {h : Heap} {p : Ptr} {m : MethodReference}
    (hm : argMethod h (.ifaceMethod p) = .ok (.method m)) :
    (deref h.methods p).bind (·.toMethodRef h) = .ok m := by
  obtain ⟨x, h1, h2⟩ := bind_eq_ok hm
  obtain ⟨y, h3, h4⟩ := bind_eq_ok h2
  rw [h1]
  simp only [Outcome.ok.injEq, SymbolOrMethodRef.method.injEq] at h4
  rw [← h4]
  exact h3

theorem qualifyArg_of_settled {h : Heap} {i : Imports} {a : Arg} (ha : ArgSettled h i a) :
    qualifyArg h a i = (.ok a, i) := by
  cases a <;> simp only [ArgSettled] at ha <;> rw [qualifyArg]
  case package | packagePtr => rw [IM.bind_ok (registerPackage_of_named ha)]; simp
  case symbol => rw [IM.bind_ok (ensureImported_of_settled ha)]; rfl
  case mref | mrefPtr => exact symOrRef_of_settled ha
  case sigPtr => rw [IM.bind_ok (ensureAllTypesImported_of_settled ha)]; rfl
  case typeName => rw [IM.bind_ok (ensureTypeImported_of_settled ha)]; rfl
  case ifaceMethod =>
    obtain ⟨m, h1, h2⟩ := ha
    rw [argMethod_lift h1, IM.bind_ok (IM.lift_apply _ _)]
    exact symOrRef_of_settled h2
  case func =>
    obtain ⟨m, h1, h2⟩ := ha
    rw [argMethod] at h1
    rw [h1, IM.bind_ok (IM.lift_apply _ _)]
    exact symOrRef_of_settled h2
  case goObject =>
    obtain ⟨m, h1, h2⟩ := ha
    rw [argMethod] at h1
    rw [h1, IM.bind_ok (IM.lift_apply _ _)]
    exact symOrRef_of_settled h2
  all_goals first | rfl | (intros; simp_all)

theorem symOrRef_symbol_settled {orig a : Arg} {s : Symbol} {i j : Imports} {h : Heap}
    (hx : qualifySymOrRef orig (.symbol s) i = (.ok a, j)) : ArgSettled h j a := by
  rw [qualifySymOrRef] at hx
  obtain ⟨s', i1, h1, hx⟩ := IM.bind_eq_ok hx
  obtain ⟨e1, e2⟩ := pure_eq_ok hx
  subst e1 e2
  exact ensureImported_settled h1

theorem symOrRef_method_settled {orig a : Arg} {m : MethodReference} {i j : Imports} {h : Heap}
    (hx : qualifySymOrRef orig (.method m) i = (.ok a, j))
    (ho : QPkg j m.type.package → ArgSettled h j orig) : ArgSettled h j a := by
  rw [qualifySymOrRef] at hx
  obtain ⟨s', i1, h1, hx⟩ := IM.bind_eq_ok hx
  have g := ensureImported_settled h1
  rw [IM.ite_apply] at hx
  split at hx
  · obtain ⟨e1, e2⟩ := pure_eq_ok hx
    subst e1 e2
    exact g
  · obtain ⟨e1, e2⟩ := pure_eq_ok hx
    rename_i hne
    simp only [ne_eq, not_not] at hne
    subst e1 e2 hne
    exact ho g

theorem qualifyArg_settled {h : Heap} {i j : Imports} {a a' : Arg}
    (hx : qualifyArg h a i = (.ok a', j)) : ArgSettled h j a' := by
  cases a <;> rw [qualifyArg] at hx
  case package | packagePtr =>
    obtain ⟨n, i1, h1, hx⟩ := IM.bind_eq_ok hx
    have hn := registerPackage_named h1
    rw [IM.ite_apply] at hx
    split at hx
    · obtain ⟨e1, e2⟩ := pure_eq_ok hx
      subst e1 e2
      exact hn
    · obtain ⟨e1, e2⟩ := pure_eq_ok hx
      rename_i hne
      simp only [ne_eq, not_not] at hne
      subst e1 e2 hne
      exact hn
  case symbol | symbolPtr =>
    obtain ⟨n, i1, h1, hx⟩ := IM.bind_eq_ok hx
    obtain ⟨e1, e2⟩ := pure_eq_ok hx
    subst e1 e2
    exact ensureImported_settled h1
  case mref => exact symOrRef_method_settled hx id
  case mrefPtr => exact symOrRef_method_settled hx id
  case sig | sigPtr =>
    obtain ⟨n, i1, h1, hx⟩ := IM.bind_eq_ok hx
    obtain ⟨e1, e2⟩ := pure_eq_ok hx
    subst e1 e2
    exact ensureAllTypesImported_settled h1
  case typeName =>
    obtain ⟨n, i1, h1, hx⟩ := IM.bind_eq_ok hx
    obtain ⟨e1, e2⟩ := pure_eq_ok hx
    subst e1 e2
    exact ensureTypeImported_settled h1
  case value | typeSpec =>
    obtain ⟨n, i1, h1, hx⟩ := IM.bind_eq_ok hx
    exact symOrRef_symbol_settled hx
  case ifaceMethod p =>
    obtain ⟨m, i1, h1, hx⟩ := IM.bind_eq_ok hx
    obtain ⟨h2, -⟩ := lift_eq_ok h1
    refine symOrRef_method_settled hx fun g => ⟨m, ?_, g⟩
    obtain ⟨y, h3, h4⟩ := bind_eq_ok h2
    rw [argMethod, h3]
    show (y.toMethodRef h).bind _ = _
    rw [h4]
    rfl
  case func p =>
    obtain ⟨m, i1, h1, hx⟩ := IM.bind_eq_ok hx
    obtain ⟨h2, -⟩ := lift_eq_ok h1
    cases m with
    | symbol s => exact symOrRef_symbol_settled hx
    | method m => exact symOrRef_method_settled hx fun g => ⟨m, h2, g⟩
  case goObject p =>
    obtain ⟨m, i1, h1, hx⟩ := IM.bind_eq_ok hx
    obtain ⟨h2, -⟩ := lift_eq_ok h1
    cases m with
    | symbol s => exact symOrRef_symbol_settled hx
    | method m => exact symOrRef_method_settled hx fun g => ⟨m, h2, g⟩
  case reflectType | goType =>
    obtain ⟨m, i1, h1, hx⟩ := IM.bind_eq_ok hx
    obtain ⟨n, i1, h1, hx⟩ := IM.bind_eq_ok hx
    obtain ⟨e1, e2⟩ := pure_eq_ok hx
    subst e1 e2
    exact ensureTypeImported_settled h1
  case goPackage =>
    obtain ⟨m, i1, h1, hx⟩ := IM.bind_eq_ok hx
    obtain ⟨n, i1, h1, hx⟩ := IM.bind_eq_ok hx
    obtain ⟨e1, e2⟩ := pure_eq_ok hx
    subst e1 e2
    trivial
  all_goals first
    | (obtain ⟨e1, e2⟩ := pure_eq_ok hx; subst e1 e2; trivial)
    | (intros; simp_all)

theorem qualifyArgList_of_settled {h : Heap} : ∀ {l : List Arg} {i : Imports},
    (∀ a ∈ l, ArgSettled h i a) → qualifyArgList h l i = (.ok (), l, i)
  | [], _, _ => rfl
  | a :: l, i, ha => by
    rw [qualifyArgList, qualifyArg_of_settled (ha a (by simp))]
    simp only [qualifyArgList_of_settled (l := l) fun b hb => ha b (by simp [hb])]

theorem qualifyArgList_settled {h : Heap} : ∀ {l l' : List Arg} {i j : Imports},
    qualifyArgList h l i = (.ok (), l', j) → ∀ a ∈ l', ArgSettled h j a
  | [], l', i, j, hx => by
    simp only [qualifyArgList, Prod.mk.injEq] at hx
    obtain ⟨-, rfl, rfl⟩ := hx
    simp
  | a :: l, l', i, j, hx => by
    rw [qualifyArgList] at hx
    rcases ha : qualifyArg h a i with ⟨_ | _ | _, i1⟩ <;> rw [ha] at hx
    · rcases hl : qualifyArgList h l i1 with ⟨o, l1, i2⟩
      simp only [hl, Prod.mk.injEq] at hx
      obtain ⟨rfl, rfl, rfl⟩ := hx
      have ih := qualifyArgList_settled hl
      have hev := (evolves_qualifyArgList h l i1).1
      rw [hl] at hev
      intro b hb
      rcases List.mem_cons.1 hb with rfl | hb
      · exact (qualifyArg_settled ha).later (.refl _) hev.ext
      · exact ih b hb
    · simp at hx
    · simp at hx

theorem Later.args {h i h' i'} (a : Later h i h' i') {p l} (ht : h.args p = some l)
    (hs : ∀ a ∈ l, ArgSettled h i a) : h'.args p = some l ∧ ∀ a ∈ l, ArgSettled h' i' a := by
  refine a.induct (P := fun h i => h.args p = some l ∧ ∀ a ∈ l, ArgSettled h i a)
    (fun h i h' i' s hp => ⟨?_, fun b hb => (hp.2 b hb).later s.stays s.ext⟩)
    (fun h i files hf hp => ⟨hp.1, fun b hb => (hp.2 b hb).later
      (Later.file (.refl h i) hf).stays (Ext.refl _)⟩) ⟨ht, hs⟩
  cases s with
  | @args q l1 l2 o _ hq hu =>
    by_cases hpq : p = q
    · subst hpq
      rw [hp.1] at hq
      obtain rfl := Option.some.inj hq
      rw [qualifyArgList_of_settled hp.2] at hu
      simp only [Prod.mk.injEq] at hu
      rw [← hu.2.1]
      exact upd_same ..
    · exact (upd_ne _ _ hpq).trans hp.1
  | _ => exact hp.1

theorem ArgSettled.written {h : Heap} {i : Imports} {a : Arg} {pk : Package} (ha : ArgSettled h i a)
    (hw : WrittenArg h a pk) : QPkg i pk := by
  have one : ∀ {q : Package}, pk ∈ [q] → QPkg i q → QPkg i pk := by
    intro q hq h
    rw [List.mem_singleton] at hq
    rwa [hq]
  have syms : ∀ {t : TypeName}, pk ∈ t.symbols.map (·.package) → TypeSettled i t → QPkg i pk := by
    intro t hq h
    obtain ⟨s, hs, rfl⟩ := List.mem_map.1 hq
    exact TypeName.All.symbols _ h s hs
  have sigs : ∀ {t : Signature}, pk ∈ t.symbols.map (·.package) → SigSettled i t → QPkg i pk := by
    intro t hq h
    obtain ⟨s, hs, rfl⟩ := List.mem_map.1 hq
    exact Signature.All.symbols _ h s hs
  cases hw with
  | sig h => exact absurd ha (by simp [ArgSettled])
  | sigPtr h => exact sigs h ha
  | ref hd hp =>
    cases hd with
    | package | packagePtr => exact one hp (.inr ha)
    | symbol | mref | mrefPtr => exact one hp ha
    | typeName => exact syms hp ha
    | symbolPtr | value | typeSpec | reflectType | goType | goPackage =>
      exact absurd ha (by simp [ArgSettled])
    | func h1 h2 h3 h4 =>
      obtain ⟨m, h5, h6⟩ := ha
      rw [argMethod, deref_ok h1] at h5
      simp only [Outcome.bind, FuncSpec.toSymbol, h2, h3, packageAt, deref_ok h4] at h5
      nomatch h5
    | method h1 h2 h3 h4 =>
      obtain ⟨m, h5, h6⟩ := ha
      rw [argMethod, deref_ok h1] at h5
      simp only [Outcome.bind, FuncSpec.toSymbol, h2, h3, packageAt, deref_ok h4] at h5
      obtain rfl := SymbolOrMethodRef.method.inj (Outcome.ok.inj h5)
      exact one hp h6
    | ifaceMethod h1 h2 h3 h4 h5 h6 =>
      obtain ⟨m, h7, h8⟩ := ha
      rw [argMethod, deref_ok h1] at h7
      simp only [Outcome.bind, InterfaceMethod.toMethodRef, h2, deref_ok h3] at h7
      change ((TypeSpec.toSymbol h _).bind _).bind _ = _ at h7
      simp only [Outcome.bind, TypeSpec.toSymbol, if_neg h4, h5, packageAt, deref_ok h6] at h7
      obtain rfl := SymbolOrMethodRef.method.inj (Outcome.ok.inj h7)
      exact one hp h8
    | goSymbol h1 =>
      obtain ⟨m, h7, h8⟩ := ha
      rw [argMethod, h1] at h7
      simp at h7
    | goMethod h1 =>
      obtain ⟨m, h7, h8⟩ := ha
      rw [argMethod, h1] at h7
      simp only [Outcome.ok.injEq, SymbolOrMethodRef.method.injEq] at h7
      subst h7
      exact one hp h8

/-! ### Running code on the heap -/

theorem QM.bind_eq_ok {α β} {x : QM α} {f : α → QM β} {h i b h2 i2}
    (hx : QM.bind x f h i = (.ok b, h2, i2)) :
    ∃ a h1 i1, x h i = (.ok a, h1, i1) ∧ f a h1 i1 = (.ok b, h2, i2) := by
  unfold QM.bind at hx
  rcases hxe : x h i with ⟨a | _ | _, h1, i1⟩ <;> rw [hxe] at hx
  · exact ⟨a, h1, i1, rfl, hx⟩
  · simp at hx
  · simp at hx

theorem QM.bind_ok {α β} {x : QM α} {f : α → QM β} {h i a h1 i1} (hx : x h i = (.ok a, h1, i1)) :
    QM.bind x f h i = f a h1 i1 := by
  unfold QM.bind
  rw [hx]

theorem QM.read_eq_ok {α} {m : Heap → Ptr → Option α} {p : Ptr} {h i a h1 i1}
    (hx : QM.read m p h i = (.ok a, h1, i1)) : m h p = some a ∧ h1 = h ∧ i1 = i := by
  simp only [QM.read, Prod.mk.injEq] at hx
  exact ⟨deref_eq_ok hx.1, hx.2.1.symm, hx.2.2.symm⟩

theorem QM.bind_read_eq_ok {α β} {m : Heap → Ptr → Option α} {p : Ptr} {f : α → QM β} {h i b h2 i2}
    (hx : QM.bind (QM.read m p) f h i = (.ok b, h2, i2)) :
    ∃ a, m h p = some a ∧ f a h i = (.ok b, h2, i2) := by
  obtain ⟨a, h1, i1, e1, e2⟩ := QM.bind_eq_ok hx
  obtain ⟨e3, rfl, rfl⟩ := QM.read_eq_ok e1
  exact ⟨a, e3, e2⟩

theorem QM.read_ok {α} {m : Heap → Ptr → Option α} {p : Ptr} {h : Heap} {i : Imports} {a}
    (hx : m h p = some a) : QM.read m p h i = (.ok a, h, i) := by
  simp only [QM.read, deref_ok hx]

theorem QM.lift_eq_ok {α} {x : Heap → IM α} {h i a h1 i1}
    (hx : QM.lift x h i = (.ok a, h1, i1)) : x h i = (.ok a, i1) ∧ h1 = h := by
  simp only [QM.lift, Prod.mk.injEq] at hx
  refine ⟨?_, hx.2.1.symm⟩
  rw [← hx.1, ← hx.2.2]

theorem QM.bind_lift_eq_ok {α β} {x : Heap → IM α} {f : α → QM β} {h i b h2 i2}
    (hx : QM.bind (QM.lift x) f h i = (.ok b, h2, i2)) :
    ∃ a i1, x h i = (.ok a, i1) ∧ f a h i1 = (.ok b, h2, i2) := by
  obtain ⟨a, h1, i1, e1, e2⟩ := QM.bind_eq_ok hx
  obtain ⟨e3, rfl⟩ := QM.lift_eq_ok e1
  exact ⟨a, i1, e3, e2⟩

theorem QM.lift_ok {α} {x : Heap → IM α} {h i a i1} (hx : x h i = (.ok a, i1)) :
    QM.lift x h i = (.ok a, h, i1) := by
  simp only [QM.lift, hx]

theorem QM.forEach_of {α} {f : α → QM Unit} {h i} : ∀ {l : List α},
    (∀ a ∈ l, f a h i = (.ok (), h, i)) → QM.forEach f l h i = (.ok (), h, i)
  | [], _ => rfl
  | a :: l, hl => by
    rw [QM.forEach, QM.bind_ok (hl a (by simp))]
    exact QM.forEach_of fun b hb => hl b (by simp [hb])

theorem QM.Steps.later {α} {x : QM α} (hx : QM.Steps x) {h i o h1 i1} (he : x h i = (o, h1, i1)) :
    Later h i h1 i1 := by
  have := (hx h i).later
  rwa [he] at this

/-! ### Template data without specs -/

theorem Later.noSpecData {h i h' i'} (a : Later h i h' i') (hn : NoSpecData h) : NoSpecData h' := by
  refine a.induct (P := fun h _ => NoSpecData h) (fun h i h' i' s hp => ?_) (fun _ _ _ _ hp => hp) hn
  cases s with
  | @templ q ts' u _ hq hu =>
    intro p t ht
    by_cases hpq : p = q
    · subst hpq
      simp only [upd_same, Option.some.injEq] at ht
      subst ht
      exact (qualifyTemplateData_done hu).2 (hp _ _ hq)
    · exact hp p t ((upd_ne _ _ hpq).symm.trans ht)
  | _ => exact hp

theorem QM.forEach_settled {α : Type} {f : α → QM Unit} {P : Heap → Imports → α → Prop}
    (hsteps : ∀ a, QM.Steps (f a))
    (hlater : ∀ a h i h' i', Later h i h' i' → P h i a → P h' i' a)
    (hpost : ∀ a h i h' i', f a h i = (.ok (), h', i') → P h' i' a) :
    ∀ {l : List α} {h i h' i'}, QM.forEach f l h i = (.ok (), h', i') → ∀ a ∈ l, P h' i' a
  | [], _, _, _, _, _ => by simp
  | a :: l, h, i, h', i', hx => by
    rw [QM.forEach] at hx
    obtain ⟨u, h1, i1, e1, e2⟩ := QM.bind_eq_ok hx
    have l2 := (QM.Steps.forEach hsteps l).later e2
    intro b hb
    rcases List.mem_cons.1 hb with rfl | hb
    · exact hlater _ _ _ _ _ l2 (hpost _ _ _ _ _ e1)
    · exact QM.forEach_settled hsteps hlater hpost e2 b hb

/-! ### Code blocks -/

/-- The code element is as qualification leaves it. -/
def CodeElemSettled (h : Heap) (i : Imports) : CodeElem → Prop
  | .line _ p => ∃ l, h.args p = some l ∧ ∀ a ∈ l, ArgSettled h i a
  | .templ p => ∃ t, h.templs p = some t ∧ TemplDone h i t.data

theorem CodeElemSettled.later {h i h' i'} (a : Later h i h' i') {e : CodeElem}
    (he : CodeElemSettled h i e) : CodeElemSettled h' i' e := by
  cases e with
  | line f p => obtain ⟨l, h1, h2⟩ := he; exact ⟨l, a.args h1 h2⟩
  | templ p => obtain ⟨l, h1, h2⟩ := he; exact a.templ h1 h2

theorem codeElem_settled {e : CodeElem} {h i h' i'}
    (hx : e.qualify h i = (.ok (), h', i')) : CodeElemSettled h' i' e := by
  cases e with
  | line f p =>
    simp only [CodeElem.qualify] at hx
    split at hx
    · simp at hx
    · rename_i l hl
      rcases hq : qualifyArgList h l i with ⟨o, l', i1⟩
      simp only [hq, Prod.mk.injEq] at hx
      obtain ⟨rfl, rfl, rfl⟩ := hx
      refine ⟨l', upd_same .., fun a ha => (qualifyArgList_settled hq a ha).later ?_ (Ext.refl _)⟩
      exact (QStep.args hl hq).stays
  | templ p =>
    obtain ⟨t, e1, hx⟩ := QM.bind_read_eq_ok hx
    obtain ⟨d, i2, e2, hx⟩ := QM.bind_lift_eq_ok hx
    simp only [QM.modify, Prod.mk.injEq] at hx
    obtain ⟨-, rfl, rfl⟩ := hx
    exact ⟨_, upd_same .., (qualifyTemplateData_done e2).1.later (QStep.templ e1 e2).specsStay (.refl _)⟩

/-- The copies that stand for specs in the template's data have the name under which the package path
"" is imported. -/
def TemplNamed (h : Heap) (i : Imports) (q : Ptr) : Prop :=
  ∀ t, h.templs q = some t → CopiesNamed i t.data.copyNames

theorem codeElem_of_settled {e : CodeElem} {h i} (he : CodeElemSettled h i e)
    (hc : ∀ q, e = .templ q → TemplNamed h i q) :
    e.qualify h i = (.ok (), h, i) := by
  cases e with
  | line f p =>
    obtain ⟨l, h1, h2⟩ := he
    simp only [CodeElem.qualify, h1, qualifyArgList_of_settled h2, upd_eq_self h1]
  | templ p =>
    obtain ⟨t, h1, h2⟩ := he
    rw [CodeElem.qualify, QM.bind_ok (QM.read_ok h1),
      QM.bind_ok (QM.lift_ok (h2.1 h i (.refl _) (Ext.refl _) (hc p rfl t h1)))]
    simp only [QM.modify, upd_eq_self h1]

/-- The code block is as qualification leaves it. -/
def CodeSettled (h : Heap) (i : Imports) (cb : CodeBlock) : Prop := ∀ e ∈ cb, CodeElemSettled h i e

theorem CodeSettled.later {h i h' i'} (a : Later h i h' i') {cb} (hc : CodeSettled h i cb) :
    CodeSettled h' i' cb := fun e he => (hc e he).later a

theorem code_settled {cb : CodeBlock} {h i h' i'}
    (hx : qualifyCode cb h i = (.ok (), h', i')) : CodeSettled h' i' cb :=
  QM.forEach_settled (P := CodeElemSettled) steps_codeElem (fun _ _ _ _ _ a => .later a)
    (fun _ _ _ _ _ hx => codeElem_settled hx) hx

theorem code_of_settled {cb : CodeBlock} {h i} (hc : CodeSettled h i cb)
    (hn : ∀ q, .templ q ∈ cb → TemplNamed h i q) : qualifyCode cb h i = (.ok (), h, i) :=
  QM.forEach_of fun e he => codeElem_of_settled (hc e he) fun q hq => hn q (hq ▸ he)

/-! ### Interface elements -/

/-- The interface element is as qualification leaves it. -/
def IfaceSettled (h : Heap) (i : Imports) : IfaceElem → Prop
  | .embed p => ∃ e, h.embeds p = some e ∧ QPkg i e.type.package
  | .method p => ∃ m, h.methods p = some m ∧ SigSettled i m.signature

theorem IfaceSettled.later {h i h' i'} (a : Later h i h' i') {e : IfaceElem} (he : IfaceSettled h i e) :
    IfaceSettled h' i' e := by
  cases e with
  | embed p => obtain ⟨l, h1, h2⟩ := he; exact ⟨l, a.embed h1 h2⟩
  | method p => obtain ⟨l, h1, h2⟩ := he; exact ⟨l, a.method h1 h2⟩

theorem iface_settled {e : IfaceElem} {h i h' i'} (hx : e.qualify h i = (.ok (), h', i')) :
    IfaceSettled h' i' e := by
  cases e with
  | embed p =>
    obtain ⟨t, e1, hx⟩ := QM.bind_read_eq_ok hx
    obtain ⟨d, i2, e2, hx⟩ := QM.bind_lift_eq_ok hx
    simp only [QM.modify, Prod.mk.injEq] at hx
    obtain ⟨-, rfl, rfl⟩ := hx
    obtain ⟨s, h3, h4⟩ := embedQualify_eq e2
    refine ⟨_, upd_same .., ?_⟩
    rw [h4]
    exact ensureImported_settled h3
  | method p =>
    obtain ⟨t, e1, hx⟩ := QM.bind_read_eq_ok hx
    obtain ⟨d, i2, e2, hx⟩ := QM.bind_lift_eq_ok hx
    simp only [QM.modify, Prod.mk.injEq] at hx
    obtain ⟨-, rfl, rfl⟩ := hx
    obtain ⟨s, h3, h4⟩ := methodQualify_eq e2
    refine ⟨_, upd_same .., ?_⟩
    rw [h4]
    exact ensureAllTypesImported_settled h3

theorem iface_of_settled {e : IfaceElem} {h i} (he : IfaceSettled h i e) :
    e.qualify h i = (.ok (), h, i) := by
  cases e with
  | embed p =>
    obtain ⟨t, h1, h2⟩ := he
    rw [IfaceElem.qualify, QM.bind_ok (QM.read_ok h1),
      QM.bind_ok (QM.lift_ok (InterfaceEmbed.qualify_of_settled h2))]
    simp only [QM.modify, upd_eq_self h1]
  | method p =>
    obtain ⟨t, h1, h2⟩ := he
    rw [IfaceElem.qualify, QM.bind_ok (QM.read_ok h1),
      QM.bind_ok (QM.lift_ok (InterfaceMethod.qualify_of_settled h2))]
    simp only [QM.modify, upd_eq_self h1]

/-! ### Type specs -/

/-- The field is as qualification leaves it; `sub` says so of a nested spec. -/
def FieldSettled (sub : Ptr → Prop) (h : Heap) (i : Imports) (p : Ptr) : Prop :=
  ∃ f, h.fields p = some f ∧ (∀ t, f.type = .name t → TypeSettled i t) ∧ ∀ q, f.type = .spec q → sub q

/-- The type spec is as qualification leaves it. -/
def SpecSettled (h : Heap) (i : Imports) : Nat → Ptr → Prop
  | 0, _ => False
  | fuel + 1, p => ∃ ts, h.types p = some ts ∧ TypeSettled i ts.underlying ∧
      (∀ q ∈ ts.structBody, FieldSettled (SpecSettled h i fuel) h i q) ∧
      ∀ e ∈ ts.interfaceBody, IfaceSettled h i e

theorem FieldSettled.later {h i h' i'} (a : Later h i h' i') {sub sub' : Ptr → Prop}
    (hsub : ∀ q, sub q → sub' q) {p} (hf : FieldSettled sub h i p) : FieldSettled sub' h' i' p := by
  obtain ⟨f, h1, h2, h3⟩ := hf
  obtain ⟨h4, h5⟩ := a.field h1 h2
  exact ⟨f, h4, h5, fun q hq => hsub q (h3 q hq)⟩

theorem SpecSettled.later {h i h' i'} (a : Later h i h' i') : ∀ {fuel p}, SpecSettled h i fuel p →
    SpecSettled h' i' fuel p
  | 0, _, hs => hs.elim
  | fuel + 1, p, hs => by
    obtain ⟨ts, h1, h2, h3, h4⟩ := hs
    obtain ⟨h5, h6⟩ := a.type h1 h2
    exact ⟨ts, h5, h6, fun q hq => (h3 q hq).later a fun _ => SpecSettled.later a,
      fun e he => (h4 e he).later a⟩

theorem field_of_settled {sub : Ptr → QM Unit} {P : Ptr → Prop} {h i} {p : Ptr}
    (hsub : ∀ q, P q → sub q h i = (.ok (), h, i)) (hf : FieldSettled P h i p) :
    qualifyField sub p h i = (.ok (), h, i) := by
  obtain ⟨f, h1, h2, h3⟩ := hf
  rw [qualifyField, QM.bind_ok (QM.read_ok h1)]
  cases ht : f.type with
  | nil => rfl
  | name t =>
    simp only
    rw [QM.bind_ok (QM.lift_ok (ensureTypeImported_of_settled (h2 t ht)))]
    have : { f with type := TypeRef.name t } = f := by rw [← ht]
    simp only [QM.modify, this, upd_eq_self h1]
  | spec q => exact hsub q (h3 q ht)

theorem spec_settled : ∀ {fuel p h i h' i'}, qualifySpec fuel p h i = (.ok (), h', i') →
    SpecSettled h' i' fuel p
  | 0, p, h, i, h', i', hx => by simp [qualifySpec, QM.hang] at hx
  | fuel + 1, p, h, i, h', i', hx => by
    rw [qualifySpec] at hx
    obtain ⟨ts, e1, hx⟩ := QM.bind_read_eq_ok hx
    obtain ⟨u, i2, e2, hx⟩ := QM.bind_lift_eq_ok hx
    obtain ⟨_, h3, i3, e3, hx⟩ := QM.bind_eq_ok hx
    simp only [QM.modify, Prod.mk.injEq] at e3
    obtain ⟨-, e3, rfl⟩ := e3
    obtain ⟨_, h4, i4, e4, hx⟩ := QM.bind_eq_ok hx
    have l4 := (QM.Steps.forEach (steps_field (steps_spec fuel)) ts.structBody).later e4
    have l5 := (QM.Steps.forEach steps_ifaceElem ts.interfaceBody).later hx
    have ht3 : h3.types p = some { ts with underlying := u } := by subst e3; exact upd_same ..
    obtain ⟨h6, h7⟩ := (l4.trans l5).type ht3 (ensureTypeImported_settled e2)
    refine ⟨_, h6, h7, fun q hq => ?_, ?_⟩
    · have := QM.forEach_settled (P := fun h i q => FieldSettled (SpecSettled h i fuel) h i q)
        (steps_field (steps_spec fuel)) (fun _ _ _ _ _ a hp => hp.later a fun _ => SpecSettled.later a)
        (fun q h i h' i' hx => ?_) e4 q hq
      · exact this.later l5 fun _ => SpecSettled.later l5
      · obtain ⟨f, f1, hx'⟩ := QM.bind_read_eq_ok hx
        cases ht : f.type with
        | spec r =>
          simp only [ht] at hx'
          have l := (steps_spec fuel r).later hx'
          obtain ⟨g3, g4⟩ := l.field f1 (by simp [ht])
          refine ⟨f, g3, g4, fun r' hr' => ?_⟩
          rw [ht] at hr'
          cases hr'
          exact spec_settled hx'
        | nil =>
          simp only [ht, QM.ret, Prod.mk.injEq] at hx'
          obtain ⟨-, rfl, rfl⟩ := hx'
          exact ⟨f, f1, by simp [ht], by simp [ht]⟩
        | name t =>
          simp only [ht] at hx'
          obtain ⟨d, i2, e2, hx'⟩ := QM.bind_lift_eq_ok hx'
          simp only [QM.modify, Prod.mk.injEq] at hx'
          obtain ⟨-, rfl, rfl⟩ := hx'
          refine ⟨_, upd_same .., ?_, by simp⟩
          rintro _ ⟨⟩
          exact ensureTypeImported_settled e2
    · exact QM.forEach_settled (P := IfaceSettled) steps_ifaceElem (fun _ _ _ _ _ a => .later a)
        (fun _ _ _ _ _ hx => iface_settled hx) hx

theorem spec_of_settled {h i} : ∀ {fuel p}, SpecSettled h i fuel p → qualifySpec fuel p h i = (.ok (), h, i)
  | 0, _, hs => hs.elim
  | fuel + 1, p, hs => by
    obtain ⟨ts, h1, h2, h3, h4⟩ := hs
    rw [qualifySpec, QM.bind_ok (QM.read_ok h1),
      QM.bind_ok (QM.lift_ok (ensureTypeImported_of_settled h2))]
    rw [QM.bind_ok (show QM.modify _ h i = (.ok (), h, i) by
      simp only [QM.modify, upd_eq_self h1])]
    rw [QM.bind_ok (QM.forEach_of fun q hq => field_of_settled (fun _ => spec_of_settled) (h3 q hq))]
    exact QM.forEach_of fun e he => iface_of_settled (h4 e he)

/-! ### Constants, variables and functions -/

/-- The spec is as qualification leaves it. -/
def ValueSettled (fuel : Nat) (h : Heap) (i : Imports) (p : Ptr) : Prop :=
  ∃ c, h.values p = some c ∧ (∀ t, c.type = .name t → TypeSettled i t) ∧
    (∀ q, c.type = .spec q → SpecSettled h i fuel q) ∧
    ∀ b, c.init = some b → ∃ cb, h.blocks b = some cb ∧ CodeSettled h i cb

theorem ValueSettled.later {fuel h i h' i'} (a : Later h i h' i') {p} (hv : ValueSettled fuel h i p) :
    ValueSettled fuel h' i' p := by
  obtain ⟨c, h1, h2, h3, h4⟩ := hv
  obtain ⟨h5, h6⟩ := a.value h1 h2
  refine ⟨c, h5, h6, fun q hq => (h3 q hq).later a, fun b hb => ?_⟩
  obtain ⟨cb, h7, h8⟩ := h4 b hb
  exact ⟨cb, by rw [a.stays.blocks]; exact h7, h8.later a⟩

theorem valueInit_settled {init : Option Ptr} {h i h' i'}
    (hx : (match init with
      | none => QM.ret ()
      | some b => QM.bind (QM.read (·.blocks) b) qualifyCode) h i = (.ok (), h', i')) :
    Later h i h' i' ∧ ∀ b, init = some b → ∃ cb, h'.blocks b = some cb ∧ CodeSettled h' i' cb := by
  cases init with
  | none =>
    simp only [QM.ret, Prod.mk.injEq] at hx
    obtain ⟨-, rfl, rfl⟩ := hx
    exact ⟨.refl _ _, by simp⟩
  | some b =>
    simp only at hx
    obtain ⟨cb, e1, hx⟩ := QM.bind_read_eq_ok hx
    have l := (steps_code cb).later hx
    refine ⟨l, ?_⟩
    rintro _ ⟨⟩
    exact ⟨cb, by rw [l.stays.blocks]; exact e1, code_settled hx⟩

theorem value_settled {fuel p h i h' i'}
    (hx : qualifyValue fuel p h i = (.ok (), h', i')) : ValueSettled fuel h' i' p := by
  rw [qualifyValue] at hx
  obtain ⟨c, e1, hx⟩ := QM.bind_read_eq_ok hx
  obtain ⟨t', h2, i2, e2, hx⟩ := QM.bind_eq_ok hx
  obtain ⟨_, h3, i3, e3, hx⟩ := QM.bind_eq_ok hx
  simp only [QM.modify, Prod.mk.injEq] at e3
  obtain ⟨-, e3, e3'⟩ := e3
  have key : (∀ t, t' = .name t → TypeSettled i2 t) ∧
      ∀ q, t' = .spec q → SpecSettled h3 i3 fuel q := by
    cases ht : c.type with
    | nil =>
      simp only [ht, qualifyTypeRef, QM.ret, Prod.mk.injEq, Outcome.ok.injEq] at e2
      obtain ⟨rfl, rfl, rfl⟩ := e2
      exact ⟨by simp, by simp⟩
    | name t =>
      simp only [ht, qualifyTypeRef] at e2
      obtain ⟨d, i4, e4, e2⟩ := QM.bind_lift_eq_ok e2
      simp only [QM.ret, Prod.mk.injEq, Outcome.ok.injEq] at e2
      obtain ⟨rfl, rfl, rfl⟩ := e2
      refine ⟨?_, by simp⟩
      rintro _ ⟨⟩
      exact ensureTypeImported_settled e4
    | spec q =>
      simp only [ht, qualifyTypeRef] at e2
      obtain ⟨d, h4, i4, e4, e2⟩ := QM.bind_eq_ok e2
      simp only [QM.ret, Prod.mk.injEq, Outcome.ok.injEq] at e2
      obtain ⟨rfl, rfl, rfl⟩ := e2
      have hv := (specOnly_spec fuel q h i).values
      rw [e4] at hv
      have hc : h4.values p = some c := by rw [show h4.values = h.values from hv]; exact e1
      have hself : { c with type := TypeRef.spec q } = c := by rw [← ht]
      rw [hself, upd_eq_self hc] at e3
      subst e3 e3'
      refine ⟨by simp, ?_⟩
      rintro _ ⟨⟩
      exact spec_settled e4
  obtain ⟨k1, k2⟩ := key
  have hc3 : h3.values p = some { c with type := t' } := by subst e3; exact upd_same ..
  obtain ⟨l, hinit⟩ := valueInit_settled hx
  subst e3'
  obtain ⟨h5, h6⟩ := l.value hc3 k1
  exact ⟨_, h5, h6, fun q hq => (k2 q hq).later l, hinit⟩

theorem value_of_settled {fuel p h i} (hv : ValueSettled fuel h i p)
    (hn : ∀ c b cb q, h.values p = some c → c.init = some b → h.blocks b = some cb → .templ q ∈ cb →
      TemplNamed h i q) :
    qualifyValue fuel p h i = (.ok (), h, i) := by
  obtain ⟨c, h1, h2, h3, h4⟩ := hv
  have ht : qualifyTypeRef fuel c.type h i = (.ok c.type, h, i) := by
    cases ht : c.type with
    | nil => rfl
    | name t => rw [qualifyTypeRef, QM.bind_ok (QM.lift_ok (ensureTypeImported_of_settled (h2 t ht)))]; rfl
    | spec q => rw [qualifyTypeRef, QM.bind_ok (spec_of_settled (h3 q ht))]; rfl
  rw [qualifyValue, QM.bind_ok (QM.read_ok h1), QM.bind_ok ht]
  rw [QM.bind_ok (show QM.modify _ h i = (.ok (), h, i) by
      simp only [QM.modify, upd_eq_self h1])]
  cases hb : c.init with
  | none => rfl
  | some b =>
    obtain ⟨cb, h5, h6⟩ := h4 b hb
    simp only
    rw [QM.bind_ok (QM.read_ok h5)]
    exact code_of_settled h6 fun q => hn c b cb q h1 hb h5

/-- The function is as qualification leaves it. -/
def FuncSettled (h : Heap) (i : Imports) (p : Ptr) : Prop :=
  ∃ f, h.funcs p = some f ∧ SigSettled i f.signature ∧ CodeSettled h i f.code

theorem FuncSettled.later {h i h' i'} (a : Later h i h' i') {p} (hf : FuncSettled h i p) :
    FuncSettled h' i' p := by
  obtain ⟨f, h1, h2, h3⟩ := hf
  obtain ⟨h4, h5⟩ := a.func h1 h2
  exact ⟨f, h4, h5, h3.later a⟩

theorem func_settled {p h i h' i'} (hx : qualifyFunc p h i = (.ok (), h', i')) :
    FuncSettled h' i' p := by
  rw [qualifyFunc] at hx
  obtain ⟨f, e1, hx⟩ := QM.bind_read_eq_ok hx
  obtain ⟨s, i2, e2, hx⟩ := QM.bind_lift_eq_ok hx
  obtain ⟨_, h3, i3, e3, hx⟩ := QM.bind_eq_ok hx
  simp only [QM.modify, Prod.mk.injEq] at e3
  obtain ⟨-, e3, rfl⟩ := e3
  have hf3 : h3.funcs p = some { f with signature := s } := by subst e3; exact upd_same ..
  have l := (steps_code f.code).later hx
  obtain ⟨h4, h5⟩ := l.func hf3 (ensureAllTypesImported_settled e2)
  exact ⟨_, h4, h5, code_settled hx⟩

theorem func_of_settled {p h i} (hf : FuncSettled h i p)
    (hn : ∀ f q, h.funcs p = some f → .templ q ∈ f.code → TemplNamed h i q) : qualifyFunc p h i = (.ok (), h, i) := by
  obtain ⟨f, h1, h2, h3⟩ := hf
  rw [qualifyFunc, QM.bind_ok (QM.read_ok h1),
    QM.bind_ok (QM.lift_ok (ensureAllTypesImported_of_settled h2))]
  rw [QM.bind_ok (show QM.modify _ h i = (.ok (), h, i) by
      simp only [QM.modify, upd_eq_self h1])]
  exact code_of_settled h3 fun q => hn f q h1

/-! ### Files -/

/-- The element of a file is as qualification leaves it. -/
def ElemSettled (fuel : Nat) (h : Heap) (i : Imports) : FileElem → Prop
  | .values p => ∃ d, h.valueDecls p = some d ∧ ∀ q ∈ d.specs, ValueSettled fuel h i q
  | .types p => ∃ d, h.typeDecls p = some d ∧ ∀ q ∈ d.types, SpecSettled h i fuel q
  | .func p => FuncSettled h i p

theorem ElemSettled.later {fuel h i h' i'} (a : Later h i h' i') {e} (he : ElemSettled fuel h i e) :
    ElemSettled fuel h' i' e := by
  cases e with
  | values p =>
    obtain ⟨d, h1, h2⟩ := he
    exact ⟨d, by rw [a.stays.valueDecls]; exact h1, fun q hq => (h2 q hq).later a⟩
  | types p =>
    obtain ⟨d, h1, h2⟩ := he
    exact ⟨d, by rw [a.stays.typeDecls]; exact h1, fun q hq => (h2 q hq).later a⟩
  | func p => exact FuncSettled.later a he

theorem elem_settled {fuel} {e : FileElem} {h i h' i'}
    (hx : e.qualify fuel h i = (.ok (), h', i')) : ElemSettled fuel h' i' e := by
  cases e with
  | values p =>
    obtain ⟨d, e1, hx⟩ := QM.bind_read_eq_ok hx
    have l := (QM.Steps.forEach (steps_value fuel) d.specs).later hx
    exact ⟨d, by rw [l.stays.valueDecls]; exact e1,
      QM.forEach_settled (P := ValueSettled fuel) (steps_value fuel) (fun _ _ _ _ _ a => .later a)
        (fun _ _ _ _ _ hx => value_settled hx) hx⟩
  | types p =>
    obtain ⟨d, e1, hx⟩ := QM.bind_read_eq_ok hx
    have l := (QM.Steps.forEach (steps_spec fuel) d.types).later hx
    exact ⟨d, by rw [l.stays.typeDecls]; exact e1,
      QM.forEach_settled (P := fun h i q => SpecSettled h i fuel q) (steps_spec fuel)
        (fun _ _ _ _ _ a => .later a) (fun _ _ _ _ _ hx => spec_settled hx) hx⟩
  | func p => exact func_settled hx

theorem elem_of_settled {fuel} {e : FileElem} {h i} (he : ElemSettled fuel h i e)
    (hn : ∀ q, TemplateIn h e q → TemplNamed h i q) :
    e.qualify fuel h i = (.ok (), h, i) := by
  cases e with
  | values p =>
    obtain ⟨d, h1, h2⟩ := he
    rw [FileElem.qualify, QM.bind_ok (QM.read_ok h1)]
    exact QM.forEach_of fun q hq => value_of_settled (h2 q hq) fun c b cb x g1 g2 g3 g4 => hn x (.init h1 hq g1 g2 g3 g4)
  | types p =>
    obtain ⟨d, h1, h2⟩ := he
    rw [FileElem.qualify, QM.bind_ok (QM.read_ok h1)]
    exact QM.forEach_of fun q hq => spec_of_settled (h2 q hq)
  | func p => exact func_of_settled he fun f q g1 g2 => hn q (.func g1 g2)

/-- After a qualification that succeeds, all elements of the file are settled. -/
theorem qualifyFile_settled {fuel p h h'} (hx : qualifyFile fuel p h = (.ok (), h')) :
    ∃ f f', h.files p = some f ∧ h'.files p = some f' ∧ f' = { f with imports := f'.imports } ∧
      (∀ e ∈ f'.elements, ElemSettled fuel h' f'.imports e) ∧
      Later h f.imports h' f'.imports := by
  rw [qualifyFile] at hx
  cases hf : h.files p with
  | none => simp [hf] at hx
  | some f =>
    simp only [hf] at hx
    rcases hq : QM.forEach (FileElem.qualify fuel) f.elements h f.imports with ⟨o, h1, i1⟩
    rw [hq] at hx
    simp only [Prod.mk.injEq] at hx
    obtain ⟨rfl, rfl⟩ := hx
    have l := (steps_fileElems fuel f.elements).later hq
    have hown := l.ext.own
    have hsame : ∀ q, (upd h1.files p { f with imports := i1 } q).map (·.package) =
        (h1.files q).map (·.package) := by
      intro q
      by_cases hqp : q = p
      · subst hqp
        have hfiles := (steps_fileElems fuel f.elements h f.imports).files
        rw [hq] at hfiles
        rw [show h1.files = h.files from hfiles, hf]
        simp [GoFile.package, hown]
      · rw [upd_ne _ _ hqp]
    refine ⟨f, { f with imports := i1 }, rfl, upd_same .., rfl, ?_, .file l hsame⟩
    intro e he
    have := QM.forEach_settled (P := ElemSettled fuel) (steps_fileElem fuel) (fun _ _ _ _ _ a => .later a)
      (fun _ _ _ _ _ hx => elem_settled hx) hq e he
    exact this.later (.file (.refl _ _) hsame)

/-- Qualifying a settled file does nothing. -/
theorem qualifyFile_of_settled {fuel p h f} (hf : h.files p = some f)
    (he : ∀ e ∈ f.elements, ElemSettled fuel h f.imports e)
    (hn : ∀ e ∈ f.elements, ∀ q, TemplateIn h e q → TemplNamed h f.imports q) :
    qualifyFile fuel p h = (.ok (), h) := by
  rw [qualifyFile]
  simp only [hf]
  rw [QM.forEach_of fun e h => elem_of_settled (he e h) (hn e h)]
  simp only [upd_eq_self hf]

/-! ### What is written -/

theorem CodeElemSettled.written {h i} {e : CodeElem} {pk} (he : CodeElemSettled h i e)
    (hw : WrittenCodeElem h e pk) : QPkg i pk := by
  cases hw with
  | line h1 h2 h3 =>
    obtain ⟨l, h4, h5⟩ := he
    rw [h1] at h4
    obtain rfl := Option.some.inj h4
    exact (h5 _ h2).written h3
  | templ h1 h2 =>
    obtain ⟨l, h4, h5⟩ := he
    rw [h1] at h4
    obtain rfl := Option.some.inj h4
    exact h5.2 _ h2

theorem TypeSettled.written {i : Imports} {t : TypeName} (h : TypeSettled i t) {pk}
    (hp : pk ∈ t.symbols.map (·.package)) : QPkg i pk := by
  obtain ⟨s, hs, rfl⟩ := List.mem_map.1 hp
  exact TypeName.All.symbols _ h s hs

theorem SigSettled.written {i : Imports} {t : Signature} (h : SigSettled i t) {pk}
    (hp : pk ∈ t.symbols.map (·.package)) : QPkg i pk := by
  obtain ⟨s, hs, rfl⟩ := List.mem_map.1 hp
  exact Signature.All.symbols _ h s hs

theorem SpecSettled.written {h i} : ∀ {fuel p pk}, SpecSettled h i fuel p → WrittenBody h p pk → QPkg i pk
  | 0, _, _, hs, _ => hs.elim
  | fuel + 1, p, pk, hs, hw => by
    obtain ⟨ts, h1, h2, h3, h4⟩ := hs
    cases hw with
    | underlying g1 g2 =>
      rw [h1] at g1; obtain rfl := Option.some.inj g1
      exact h2.written g2
    | field g1 g2 g3 g4 g5 =>
      rw [h1] at g1; obtain rfl := Option.some.inj g1
      obtain ⟨f, k1, k2, k3⟩ := h3 _ g2
      rw [k1] at g3; obtain rfl := Option.some.inj g3
      exact (k2 _ g4).written g5
    | unnamed g1 g2 g3 g4 g5 g6 g7 =>
      rw [h1] at g1; obtain rfl := Option.some.inj g1
      obtain ⟨f, k1, k2, k3⟩ := h3 _ g2
      rw [k1] at g3; obtain rfl := Option.some.inj g3
      exact (k3 _ g4).written g7
    | iface g1 g2 g3 =>
      rw [h1] at g1; obtain rfl := Option.some.inj g1
      have k := h4 _ g2
      cases g3 with
      | embed l1 =>
        obtain ⟨e, m1, m2⟩ := k
        rw [m1] at l1; obtain rfl := Option.some.inj l1
        exact m2
      | method l1 l2 =>
        obtain ⟨e, m1, m2⟩ := k
        rw [m1] at l1; obtain rfl := Option.some.inj l1
        exact m2.written l2

theorem ElemSettled.written {fuel h i} {e : FileElem} {pk} (he : ElemSettled fuel h i e)
    (hw : Written h e pk) : QPkg i pk := by
  cases hw with
  | valueType h1 h2 h3 h4 h5 =>
    obtain ⟨d, k1, k2⟩ := he
    rw [h1] at k1; obtain rfl := Option.some.inj k1
    obtain ⟨c, l1, l2, -, -⟩ := k2 _ h2
    rw [h3] at l1; obtain rfl := Option.some.inj l1
    exact (l2 _ h4).written h5
  | valueSpec h1 h2 h3 h4 h5 h6 h7 =>
    obtain ⟨d, k1, k2⟩ := he
    rw [h1] at k1; obtain rfl := Option.some.inj k1
    obtain ⟨c, l1, -, l3, -⟩ := k2 _ h2
    rw [h3] at l1; obtain rfl := Option.some.inj l1
    exact (l3 _ h4).written h7
  | valueInit h1 h2 h3 h4 h5 h6 h7 =>
    obtain ⟨d, k1, k2⟩ := he
    rw [h1] at k1; obtain rfl := Option.some.inj k1
    obtain ⟨c, l1, -, -, l4⟩ := k2 _ h2
    rw [h3] at l1; obtain rfl := Option.some.inj l1
    obtain ⟨cb, m1, m2⟩ := l4 _ h4
    rw [h5] at m1; obtain rfl := Option.some.inj m1
    exact (m2 _ h6).written h7
  | type h1 h2 h3 =>
    obtain ⟨d, k1, k2⟩ := he
    rw [h1] at k1; obtain rfl := Option.some.inj k1
    exact (k2 _ h2).written h3
  | funcSig h1 h2 =>
    obtain ⟨f, k1, k2, -⟩ := he
    rw [h1] at k1; obtain rfl := Option.some.inj k1
    exact k2.written h2
  | funcCode h1 h2 h3 =>
    obtain ⟨f, k1, -, k3⟩ := he
    rw [h1] at k1; obtain rfl := Option.some.inj k1
    exact (k3 _ h2).written h3

end Gopoet
