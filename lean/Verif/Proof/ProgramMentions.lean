import Verif.Spec.Program
import Verif.Props.Builders
import Verif.Props.TypeDecls
import Verif.Proof.Writable
/-! What is mentioned in a heap that calls have built was mentioned in the calls. -/

namespace Gopoet

/-- Everything mentioned in the heap is in `M`, all arguments of lines are in `A`. -/
structure Only (M : Package → Prop) (A : Arg → Prop) (h : Heap) : Prop where
  files : ∀ p f, h.files p = some f → M f.package
  values : ∀ p c, h.values p = some c → ∀ pk ∈ c.type.given, M pk
  types : ∀ p ts, h.types p = some ts → ∀ pk ∈ ts.underlying.symbols.map (·.package), M pk
  fields : ∀ p f, h.fields p = some f → ∀ pk ∈ f.type.given, M pk
  embeds : ∀ p e, h.embeds p = some e → M e.type.package
  methods : ∀ p m, h.methods p = some m → ∀ pk ∈ m.signature.symbols.map (·.package), M pk
  funcs : ∀ p f, h.funcs p = some f → ∀ pk ∈ f.signature.symbols.map (·.package), M pk
  args : ∀ p l, h.args p = some l → ∀ a ∈ l, A a ∧ ∀ pk ∈ a.packages, M pk
  templs : ∀ p t, h.templs p = some t → ∀ pk ∈ (TVal.iface acceptsAll t.data).packages, M pk

variable {M : Package → Prop} {A : Arg → Prop}

theorem Only.mentioned {h : Heap} (o : Only M A h) {pk : Package} (hm : Mentioned h pk) : M pk := by
  cases hm with
  | file h1 => exact o.files _ _ h1
  | value h1 h2 h3 => exact o.values _ _ h1 _ (by rw [h2]; exact h3)
  | type h1 h2 => exact o.types _ _ h1 _ h2
  | field h1 h2 h3 => exact o.fields _ _ h1 _ (by rw [h2]; exact h3)
  | embed h1 => exact o.embeds _ _ h1
  | method h1 h2 => exact o.methods _ _ h1 _ h2
  | func h1 h2 => exact o.funcs _ _ h1 _ h2
  | arg h1 h2 h3 => exact (o.args _ _ h1 _ h2).2 _ h3
  | templ h1 h2 => exact o.templs _ _ h1 _ h2

theorem Only.empty : Only M A {} := by
  constructor <;> intro p a h <;> cases h

theorem modAt_forall {α : Type} {P : α → Prop} {m m' : Ptr → Option α} {p : Ptr} {f : α → α} (hm : modAt m p f = .ok m')
    (h : ∀ q a, m q = some a → P a) (hf : ∀ a, P a → P (f a)) : ∀ q a, m' q = some a → P a := by
  unfold modAt at hm
  split at hm
  · rename_i a ha
    cases hm
    exact upd_forall h (hf _ (h _ _ ha))
  · cases hm

theorem setParents_forall {α : Type} {P : α → Prop} {set : α → α} (hs : ∀ a, P a → P (set a)) :
    ∀ (l : List Ptr) {m m' : Ptr → Option α}, setParents set m l = .ok m' → (∀ q a, m q = some a → P a) →
      ∀ q a, m' q = some a → P a := by
  intro l
  induction l with
  | nil => intro m m' h hp; cases h; exact hp
  | cons p ps ih =>
    intro m m' h hp
    unfold setParents at h
    split at h
    · cases h
    · rename_i a ha
      exact ih h (upd_forall hp (hs _ (hp _ _ ha)))

/-! ### Types -/

theorem symbolsFields_mem {fs : List FieldType} {s : Symbol} : s ∈ symbolsFields fs ↔ ∃ f ∈ fs, s ∈ f.type.symbols := by
  induction fs with
  | nil => simp [symbolsFields]
  | cons f fs ih =>
    obtain ⟨n, t, tag⟩ := f
    simp [symbolsFields, ih]

theorem symbolsMethods_mem {ms : List MethodType} {s : Symbol} :
    s ∈ symbolsMethods ms ↔ ∃ m ∈ ms, s ∈ m.signature.symbols := by
  induction ms with
  | nil => simp [symbolsMethods]
  | cons m ms ih =>
    obtain ⟨n, sig⟩ := m
    simp [symbolsMethods, ih]

theorem Only.toTypeName {h : Heap} (o : Only M A h) {q : Ptr} {ts : TypeSpec} {t : TypeName} (hq : h.types q = some ts)
    (ht : ts.toTypeName h = .ok t) : ∀ pk ∈ t.symbols.map (·.package), M pk := by
  rw [TypeSpec.toTypeName] at ht
  split at ht
  · cases ht; exact o.types _ _ hq
  · obtain ⟨s, h1, ht⟩ := bind_eq_ok ht
    cases ht
    rw [TypeSpec.toSymbol] at h1
    split at h1
    · cases h1
    · split at h1
      · cases h1
      · obtain ⟨pk, h2, h1⟩ := bind_eq_ok h1
        obtain ⟨f, h3, h2⟩ := bind_eq_ok h2
        cases h2
        cases h1
        intro pk hp
        simp only [namedType, TypeName.symbols, List.map_cons, List.map_nil, List.mem_singleton] at hp
        rw [hp]
        exact o.files _ _ (deref_eq_ok h3)

theorem Only.allocFields (par : Ptr) : ∀ (fs : List FieldType) {h : Heap}, Only M A h →
    (∀ pk ∈ (symbolsFields fs).map (·.package), M pk) → Only M A (Gopoet.allocFields h par fs).2 := by
  intro fs
  induction fs with
  | nil => intro h o _; exact o
  | cons f fs ih =>
    intro h o hm
    obtain ⟨n, t, tag⟩ := f
    simp only [symbolsFields, List.map_append, List.mem_append] at hm
    refine ih ?_ fun pk hp => hm pk (.inr hp)
    exact { o with
      fields := upd_forall o.fields fun pk hp => hm pk (.inl (by
        revert hp; cases t <;> exact id)) }

theorem Only.allocEmbeds (par : Ptr) : ∀ (es : List Symbol) {h : Heap}, Only M A h →
    (∀ s ∈ es, M s.package) → Only M A (Gopoet.allocEmbeds h par es).2 := by
  intro es
  induction es with
  | nil => intro h o _; exact o
  | cons e es ih =>
    intro h o hm
    refine ih ?_ fun s hs => hm s (.tail _ hs)
    exact { o with embeds := upd_forall o.embeds (hm e (.head _)) }

theorem Only.allocMethods (par : Ptr) : ∀ (ms : List MethodType) {h : Heap}, Only M A h →
    (∀ pk ∈ (symbolsMethods ms).map (·.package), M pk) → Only M A (Gopoet.allocMethods h par ms).2 := by
  intro ms
  induction ms with
  | nil => intro h o _; exact o
  | cons m ms ih =>
    intro h o hm
    obtain ⟨n, sig⟩ := m
    simp only [symbolsMethods, List.map_append, List.mem_append] at hm
    refine ih ?_ fun pk hp => hm pk (.inr hp)
    exact { o with methods := upd_forall o.methods fun pk hp => hm pk (.inl hp) }

theorem Only.newTypeSpec {h h' : Heap} (o : Only M A h) {n : GoString} {t : TypeRef} {p : Ptr}
    (hn : Gopoet.newTypeSpec h n t = .ok (p, h')) (ht : ∀ pk ∈ t.given, M pk) : Only M A h' := by
  have ob : Only M A { h with next := h.next + 1 } := { o with }
  unfold Gopoet.newTypeSpec at hn
  split at hn
  · cases hn
  · obtain ⟨ts, h1, hn⟩ := bind_eq_ok hn
    obtain ⟨u, h2, hn⟩ := bind_eq_ok hn
    cases hn
    exact { o with types := upd_forall o.types (by
      have := o.toTypeName (deref_eq_ok h1) h2
      split <;> exact this) }
  · split at hn
    · cases hn
    · cases hn
      have o' := ob.allocFields h.next _ ht
      exact { o' with types := upd_forall o'.types ht }
    · rename_i ms es
      cases hn
      simp only [TypeRef.given, TypeName.symbols, List.map_append, List.mem_append] at ht
      have o' := (ob.allocEmbeds h.next es (by
        intro s hs
        exact ht _ (.inl (List.mem_map_of_mem hs)))).allocMethods h.next ms (by
        intro pk hp
        exact ht pk (by tauto))
      exact { o' with types := upd_forall o'.types (by
        intro pk hp
        refine ht pk ?_
        simpa only [TypeName.symbols, List.map_append, List.mem_append] using hp) }
    · cases hn
      exact { o with types := upd_forall o.types ht }

theorem Only.collectFields (par : Ptr) : ∀ (ps : List Ptr) {h h' : Heap} {fs : List FieldType}, Only M A h →
    Gopoet.collectFields par h ps = .ok (fs, h') → Only M A h' ∧ ∀ pk ∈ (symbolsFields fs).map (·.package), M pk := by
  intro ps
  induction ps with
  | nil => intro h h' fs o hc; cases hc; exact ⟨o, fun _ h => nomatch h⟩
  | cons p ps ih =>
    intro h h' fs o hc
    unfold Gopoet.collectFields at hc
    obtain ⟨f, h1, hc⟩ := bind_eq_ok hc
    obtain ⟨t, h2, hc⟩ := bind_eq_ok hc
    obtain ⟨⟨fs', g⟩, h3, hc⟩ := bind_eq_ok hc
    cases hc
    have hp := o.fields _ _ (deref_eq_ok h1)
    have og : Only M A { h with fields := upd h.fields p { f with parent := some par } } :=
      { o with fields := upd_forall o.fields hp }
    obtain ⟨h4, h5⟩ := ih og h3
    refine ⟨h4, ?_⟩
    simp only [symbolsFields, List.map_append, List.mem_append]
    rintro pk (hk | hk)
    · cases hty : f.type with
      | nil => rw [hty] at h2; cases h2; cases hk
      | name u => rw [hty] at h2; cases h2; rw [hty] at hp; exact hp pk hk
      | spec q =>
        rw [hty] at h2
        obtain ⟨ts, h6, h7⟩ := bind_eq_ok h2
        exact og.toTypeName (deref_eq_ok h6) h7 pk hk
    · exact h5 pk hk

theorem Only.collectElems (par : Ptr) : ∀ (es : List IfaceElem) {h h' : Heap} {ss : List Symbol}
    {ms : List MethodType}, Only M A h → Gopoet.collectElems par h es = .ok (ss, ms, h') →
    Only M A h' ∧ (∀ s ∈ ss, M s.package) ∧ ∀ pk ∈ (symbolsMethods ms).map (·.package), M pk := by
  intro es
  induction es with
  | nil => intro h h' ss ms o hc; cases hc; exact ⟨o, (fun _ h => nomatch h), fun _ h => nomatch h⟩
  | cons e es ih =>
    intro h h' ss ms o hc
    cases e with
    | embed p =>
      unfold Gopoet.collectElems at hc
      obtain ⟨f, h1, hc⟩ := bind_eq_ok hc
      obtain ⟨⟨ss', ms', g⟩, h3, hc⟩ := bind_eq_ok hc
      cases hc
      have hp := o.embeds _ _ (deref_eq_ok h1)
      obtain ⟨h4, h5, h6⟩ := ih (h := { h with embeds := upd h.embeds p { f with parent := some par } })
        { o with embeds := upd_forall o.embeds hp } h3
      refine ⟨h4, ?_, h6⟩
      rintro s (_ | ⟨_, hs⟩)
      · exact hp
      · exact h5 s hs
    | method p =>
      unfold Gopoet.collectElems at hc
      obtain ⟨f, h1, hc⟩ := bind_eq_ok hc
      obtain ⟨⟨ss', ms', g⟩, h3, hc⟩ := bind_eq_ok hc
      cases hc
      have hp := o.methods _ _ (deref_eq_ok h1)
      obtain ⟨h4, h5, h6⟩ := ih (h := { h with methods := upd h.methods p { f with parent := some par } })
        { o with methods := upd_forall o.methods hp } h3
      refine ⟨h4, h5, ?_⟩
      simp only [symbolsMethods, List.map_append, List.mem_append]
      rintro pk (hk | hk)
      · exact hp pk hk
      · exact h6 pk hk

/-! ### Code -/

theorem Only.code {h h' : Heap} (o : Only M A h) {cb cb' : CodeBlock} {c : CodeCall} (hc : c.exec cb h = .ok (cb', h'))
    (hm : ∀ pk ∈ c.given, M pk) (ha : ∀ a ∈ c.args, A a) (hs : ∀ t, A (.str t)) : Only M A h' := by
  cases c with
  | print text =>
    cases hc
    exact { o with args := upd_forall o.args (by
      intro a h; cases List.mem_singleton.1 h; exact ⟨hs _, fun _ h => nomatch h⟩) }
  | println text =>
    cases hc
    exact { o with args := upd_forall o.args (by
      intro a h; cases List.mem_singleton.1 h; exact ⟨hs _, fun _ h => nomatch h⟩) }
  | printf format args =>
    cases hc
    exact { o with args := upd_forall o.args fun a h => ⟨ha a h, fun pk hp => hm pk (List.mem_flatMap.2 ⟨a, h, hp⟩)⟩ }
  | printlnf format args =>
    cases hc
    exact { o with args := upd_forall o.args fun a h => ⟨ha a h, fun pk hp => hm pk (List.mem_flatMap.2 ⟨a, h, hp⟩)⟩ }
  | renderCode t data =>
    cases hc
    exact { o with templs := upd_forall o.templs hm }
  | addCode b =>
    obtain ⟨code, _, hc⟩ := bind_eq_ok hc
    cases hc
    exact o

theorem Only.newBlock {h h' : Heap} (o : Only M A h) {p : Ptr} {c : Option CodeCall} (hc : Gopoet.newBlock h c = .ok (p, h'))
    (hm : ∀ pk ∈ (BuildCall.newBlock c).given, M pk) (ha : ∀ a ∈ (BuildCall.newBlock c).args, A a) (hs : ∀ t, A (.str t)) :
    Only M A h' := by
  unfold Gopoet.newBlock at hc
  cases c with
  | none => cases hc; exact { o with }
  | some c =>
    obtain ⟨⟨cb, h1⟩, h2, hn⟩ := bind_eq_ok hc
    cases hn
    have o' : Only M A { h with blocks := upd h.blocks h.next [], next := h.next + 1 } := { o with }
    exact { o'.code h2 hm ha hs with }

theorem Only.setParent {h h' : Heap} (o : Only M A h) {f : Ptr} {e : FileElem} (he : e.setParent f h = .ok h') : Only M A h' := by
  cases e with
  | values p =>
    obtain ⟨d, _, he⟩ := bind_eq_ok he
    obtain ⟨m, h1, he⟩ := bind_eq_ok he
    cases he
    exact { o with values := by refine setParents_forall (P := fun c : ValueSpec => ∀ pk ∈ c.type.given, M pk) ?_ _ h1 o.values; exact fun _ h => h }
  | types p =>
    obtain ⟨d, _, he⟩ := bind_eq_ok he
    obtain ⟨m, h1, he⟩ := bind_eq_ok he
    cases he
    exact { o with types := by refine setParents_forall (P := fun ts : TypeSpec => ∀ pk ∈ ts.underlying.symbols.map (·.package), M pk) ?_ _ h1 o.types; exact fun _ h => h }
  | func p =>
    obtain ⟨m, h1, he⟩ := bind_eq_ok he
    cases he
    exact { o with funcs := by refine setParents_forall (P := fun f : FuncSpec => ∀ pk ∈ f.signature.symbols.map (·.package), M pk) ?_ _ h1 o.funcs; exact fun _ h => h }

theorem Only.addElement {h h' : Heap} (o : Only M A h) {f : Ptr} {e : FileElem} (he : Gopoet.addElement h f e = .ok h') :
    Only M A h' := by
  obtain ⟨g, h1, he⟩ := bind_eq_ok he
  obtain ⟨file, h2, he⟩ := bind_eq_ok he
  cases he
  have og := o.setParent h1
  have := og.files _ _ (deref_eq_ok h2)
  exact { og with files := upd_forall og.files this }

theorem SigCall.exec_only {c : SigCall} {s : Signature} (hs : ∀ pk ∈ s.symbols.map (·.package), M pk)
    (hc : ∀ pk ∈ c.given, M pk) : ∀ pk ∈ (c.exec s).symbols.map (·.package), M pk := by
  have happ : ∀ l m : List ArgType, symbolsArgs (l ++ m) = symbolsArgs l ++ symbolsArgs m := by
    intro l m
    induction l with
    | nil => rfl
    | cons a l ih => obtain ⟨n, t⟩ := a; simp [symbolsArgs, ih]
  obtain ⟨as, rs, v⟩ := s
  cases c with
  | setVariadic b => exact hs
  | addArg n t =>
    intro pk hp
    simp only [SigCall.exec, Signature.addArg, Signature.symbols, happ, symbolsArgs, List.append_nil, List.map_append,
      List.mem_append, SigCall.given] at hs hc hp
    rcases hp with (hp | hp) | hp
    · exact hs pk (.inl hp)
    · exact hc pk hp
    · exact hs pk (.inr hp)
  | addResult n t =>
    intro pk hp
    simp only [SigCall.exec, Signature.addResult, Signature.symbols, happ, symbolsArgs, List.append_nil, List.map_append,
      List.mem_append, SigCall.given] at hs hc hp
    rcases hp with hp | hp | hp
    · exact hs pk (.inl hp)
    · exact hs pk (.inr hp)
    · exact hc pk hp

/-- A call mentions nothing else than what is in it. -/
theorem Only.exec {c : BuildCall} {h h' : Heap} (o : Only M A h) (hc : c.exec h = .ok h')
    (hm : ∀ pk ∈ c.given, M pk) (ha : ∀ a ∈ c.args, A a) (hs : ∀ t, A (.str t)) : Only M A h' := by
  cases c with
  | newValue kind names => cases hc; exact { o with values := upd_forall o.values (fun _ h => nomatch h) }
  | newValueDecl kind specs => cases hc; exact { o with }
  | newTypeDecl types => cases hc; exact { o with }
  | newTypeSpec n t =>
    obtain ⟨p, hc⟩ := built_ok hc
    exact o.newTypeSpec hc hm
  | newTypeAlias n t =>
    obtain ⟨p, hc⟩ := built_ok hc
    obtain ⟨h0, ts, h1, h2, rfl⟩ := C39_alias.1 hc
    have o' := o.newTypeSpec h1 hm
    have := o'.types _ _ h2
    exact { o' with types := upd_forall o'.types this }
  | newStructTypeSpec n fs =>
    obtain ⟨p, hc⟩ := built_ok hc
    obtain ⟨⟨ft, g⟩, h1, hn⟩ := bind_eq_ok hc
    cases hn
    obtain ⟨o', h2⟩ := Only.collectFields h.next fs (h := { h with next := h.next + 1 }) { o with } h1
    exact { o' with types := upd_forall o'.types (by simpa [structType, TypeName.symbols] using h2) }
  | newInterfaceTypeSpec n es =>
    obtain ⟨p, hc⟩ := built_ok hc
    obtain ⟨⟨ss, ms, g⟩, h1, hn⟩ := bind_eq_ok hc
    cases hn
    obtain ⟨o', h2, h3⟩ := Only.collectElems h.next es (h := { h with next := h.next + 1 }) { o with } h1
    exact { o' with types := upd_forall o'.types (by
      intro pk hp
      simp only [interfaceType, TypeName.symbols, List.map_append, List.mem_append] at hp
      rcases hp with hp | hp
      · obtain ⟨s, hs, rfl⟩ := List.mem_map.1 hp
        exact h2 s hs
      · exact h3 pk hp) }
  | newField n t => cases hc; exact { o with fields := upd_forall o.fields hm }
  | newInterfaceEmbed s => cases hc; exact { o with embeds := upd_forall o.embeds (hm _ (.head _)) }
  | newInterfaceMethod n => cases hc; exact { o with methods := upd_forall o.methods (fun _ h => nomatch h) }
  | newFunc r n => cases hc; exact { o with funcs := upd_forall o.funcs (fun _ h => nomatch h) }
  | newBlock c =>
    obtain ⟨p, hc⟩ := built_ok hc
    exact o.newBlock hc hm ha hs
  | newFile n pp pn =>
    obtain ⟨p, hc⟩ := built_ok hc
    obtain ⟨f, h1, hc⟩ := bind_eq_ok hc
    cases hc
    exact { o with files := upd_forall o.files (by
      unfold newGoFile at h1
      repeat' split at h1
      all_goals cases h1
      exact hm _ (.head _)) }
  | setComment ob c =>
    cases ob <;> (obtain ⟨m, h1, hc⟩ := bind_eq_ok hc; cases hc)
    · exact { o with values := modAt_forall (P := fun c : ValueSpec => ∀ pk ∈ c.type.given, M pk) h1 o.values fun _ h => h }
    · exact { o with }
    · exact { o with types := modAt_forall (P := fun ts : TypeSpec => ∀ pk ∈ ts.underlying.symbols.map Symbol.package, M pk) h1 o.types fun _ h => h }
    · exact { o with }
    · exact { o with fields := modAt_forall (P := fun f : FieldSpec => ∀ pk ∈ f.type.given, M pk) h1 o.fields fun _ h => h }
    · exact { o with embeds := modAt_forall (P := fun e : InterfaceEmbed => M e.type.package) h1 o.embeds fun _ h => h }
    · exact { o with methods := modAt_forall (P := fun m : InterfaceMethod => ∀ pk ∈ m.signature.symbols.map Symbol.package, M pk) h1 o.methods fun _ h => h }
    · exact { o with funcs := modAt_forall (P := fun f : FuncSpec => ∀ pk ∈ f.signature.symbols.map Symbol.package, M pk) h1 o.funcs fun _ h => h }
  | setType p t =>
    obtain ⟨m, h1, hc⟩ := bind_eq_ok hc; cases hc
    exact { o with values := modAt_forall (P := fun c : ValueSpec => ∀ pk ∈ c.type.given, M pk) h1 o.values fun _ _ => hm }
  | setInitializer p b =>
    obtain ⟨m, h1, hc⟩ := bind_eq_ok hc; cases hc
    exact { o with values := modAt_forall (P := fun c : ValueSpec => ∀ pk ∈ c.type.given, M pk) h1 o.values fun _ h => h }
  | initWith p format args =>
    obtain ⟨⟨q, g⟩, h1, hc⟩ := bind_eq_ok hc
    have o' := o.newBlock h1 hm ha hs
    obtain ⟨m, h1, hc⟩ := bind_eq_ok hc; cases hc
    exact { o' with values := modAt_forall (P := fun c : ValueSpec => ∀ pk ∈ c.type.given, M pk) h1 o'.values fun _ h => h }
  | setTag p tag =>
    obtain ⟨m, h1, hc⟩ := bind_eq_ok hc; cases hc
    exact { o with fields := modAt_forall (P := fun f : FieldSpec => ∀ pk ∈ f.type.given, M pk) h1 o.fields fun _ h => h }
  | methodSig p c =>
    obtain ⟨m, h1, hc⟩ := bind_eq_ok hc; cases hc
    exact { o with methods := modAt_forall (P := fun m : InterfaceMethod => ∀ pk ∈ m.signature.symbols.map Symbol.package, M pk) h1 o.methods fun _ h => SigCall.exec_only h hm }
  | funcSig p c =>
    obtain ⟨m, h1, hc⟩ := bind_eq_ok hc; cases hc
    exact { o with funcs := modAt_forall (P := fun f : FuncSpec => ∀ pk ∈ f.signature.symbols.map Symbol.package, M pk) h1 o.funcs fun _ h => SigCall.exec_only h hm }
  | funcCode p c =>
    obtain ⟨f, h1, hc⟩ := bind_eq_ok hc
    obtain ⟨⟨cb, g⟩, h2, hc⟩ := bind_eq_ok hc
    cases hc
    have o' := o.code h2 hm ha hs
    have := o.funcs _ _ (deref_eq_ok h1)
    exact { o' with funcs := upd_forall o'.funcs this }
  | blockCode p c =>
    obtain ⟨f, h1, hc⟩ := bind_eq_ok hc
    obtain ⟨⟨cb, g⟩, h2, hc⟩ := bind_eq_ok hc
    cases hc
    exact { o.code h2 hm ha hs with }
  | fileField p k s =>
    obtain ⟨m, h1, hc⟩ := bind_eq_ok hc; cases hc
    exact { o with files := modAt_forall (P := fun f : GoFile => M f.package) h1 o.files fun a h => by cases k <;> exact h }
  | addElement f e => exact o.addElement hc
  | addValue f kind s => exact Only.addElement (h := { h with valueDecls := upd h.valueDecls h.next { kind, specs := [s] }, next := h.next + 1 }) { o with } hc
  | addType f t => exact Only.addElement (h := { h with typeDecls := upd h.typeDecls h.next { types := [t] }, next := h.next + 1 }) { o with } hc
  | declAddValue d s =>
    obtain ⟨D, h1, hc⟩ := bind_eq_ok hc; cases hc
    exact { o with }
  | declAddType d s =>
    obtain ⟨D, h1, hc⟩ := bind_eq_ok hc; cases hc
    exact { o with }

theorem Only.build (hs : ∀ t, A (.str t)) : ∀ {cs : List BuildCall} {h h' : Heap}, Only M A h → build cs h = .ok h' →
    (∀ c ∈ cs, ∀ pk ∈ c.given, M pk) → (∀ c ∈ cs, ∀ a ∈ c.args, A a) → Only M A h' := by
  intro cs
  induction cs with
  | nil => intro h h' o hb _ _; cases hb; exact o
  | cons c cs ih =>
    intro h h' o hb hm ha
    obtain ⟨g, h1, hb⟩ := bind_eq_ok hb
    exact ih (o.exec h1 (hm c (.head _)) (ha c (.head _)) hs) hb (fun c hc => hm c (.tail _ hc)) fun c hc => ha c (.tail _ hc)

/-- What is mentioned in the heap is mentioned in a call. -/
theorem build_mentioned {cs : List BuildCall} {h : Heap} (hb : Gopoet.build cs {} = .ok h) {pk : Package} (hm : Mentioned h pk) :
    ∃ c ∈ cs, pk ∈ c.given :=
  (Only.build (M := fun pk => ∃ c ∈ cs, pk ∈ c.given) (A := fun _ => True) (fun _ => trivial) .empty hb
    (fun c hc _ hp => ⟨c, hc, hp⟩) fun _ _ _ _ => trivial).mentioned hm

/-- The arguments of lines are given to a call, or are texts. -/
theorem build_args {cs : List BuildCall} {h : Heap} (hb : Gopoet.build cs {} = .ok h) {p : Ptr} {l : List Arg} (hp : h.args p = some l)
    {a : Arg} (ha : a ∈ l) : (∃ t, a = .str t) ∨ ∃ c ∈ cs, a ∈ c.args :=
  ((Only.build (M := fun _ => True) (A := fun a => (∃ t, a = .str t) ∨ ∃ c ∈ cs, a ∈ c.args) (fun t => .inl ⟨t, rfl⟩) .empty hb
    (fun _ _ _ _ => trivial) fun c hc _ ha => .inr ⟨c, hc, ha⟩).args _ _ hp _ ha).1

end Gopoet
