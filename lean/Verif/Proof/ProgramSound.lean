import Verif.Proof.ProgramCode
import Verif.Props.Writable
/-! A heap that calls have built is sound, if the types and signatures that the calls give are valid. -/

namespace Gopoet

theorem TVal.Plain.ready {v : TVal} (k : v.Plain) (h : Heap) : v.Ready h :=
  ⟨(memory_of_noSpecs h h id v k.noSpecs).1, k.valid, k.settable, k.flatPtrs⟩

/-- The heap is sound, if the signatures of functions and methods get the changes `σ` still. Template data is
plain, and files have paths. -/
structure Sane (σ : Obj → List SigCall) (h : Heap) : Prop where
  types : ∀ p ts, h.types p = some ts → ts.underlying.valid = true ∧ (ts.structBody ≠ [] → ∃ fs, ts.underlying = .struct fs) ∧
    (ts.interfaceBody ≠ [] → ∃ ms es, ts.underlying = .interface ms es)
  fields : ∀ p f, h.fields p = some f → f.type.Given
  values : ∀ p c, h.values p = some c → c.type ≠ .nil → c.type.Given
  methods : ∀ p m, h.methods p = some m → (m.signature.after (σ (.method p))).valid = true
  funcs : ∀ p f, h.funcs p = some f → (f.signature.after (σ (.func p))).valid = true
  templs : ∀ p t, h.templs p = some t → t.data.Plain
  files : ∀ p f, h.files p = some f → f.package.importPath ≠ []

variable {σ : Obj → List SigCall}

theorem Sane.empty : Sane σ {} := by
  constructor <;> intro p <;> intro a h <;> cases h

theorem upd_at {α : Type} {P : Ptr → α → Prop} {m : Ptr → Option α} {p : Ptr} {a : α} (h : ∀ q a, m q = some a → P q a)
    (ha : P p a) : ∀ q b, upd m p a q = some b → P q b := by
  intro q b hb
  unfold upd at hb
  split at hb
  · rename_i he; cases hb; rw [he]; exact ha
  · exact h q b hb

theorem modAt_at {α : Type} {P : Ptr → α → Prop} {m m' : Ptr → Option α} {p : Ptr} {f : α → α} (hm : modAt m p f = .ok m')
    (h : ∀ q a, m q = some a → P q a) (hf : ∀ q a, P q a → P q (f a)) : ∀ q a, m' q = some a → P q a := by
  unfold modAt at hm
  split at hm
  · rename_i a ha
    cases hm
    exact upd_at h (hf _ _ (h _ _ ha))
  · cases hm

theorem setParents_at {α : Type} {P : Ptr → α → Prop} {set : α → α} (hs : ∀ q a, P q a → P q (set a)) :
    ∀ (l : List Ptr) {m m' : Ptr → Option α}, setParents set m l = .ok m' → (∀ q a, m q = some a → P q a) →
      ∀ q a, m' q = some a → P q a := by
  intro l
  induction l with
  | nil => intro m m' h hp; cases h; exact hp
  | cons p ps ih =>
    intro m m' h hp
    unfold setParents at h
    split at h
    · cases h
    · rename_i a ha
      exact ih h (upd_at hp (hs _ _ (hp _ _ ha)))

theorem Sane.sound {h : Heap} (o : Sane (fun _ => []) h) (ha : ∀ p l, h.args p = some l → ∀ a ∈ l, a.TypesValid) :
    h.Sound ∧ h.PlainBodies := by
  refine ⟨⟨fun p t hp => (o.types p t hp).1, ?_, ?_, ?_, ?_, ha, ?_⟩, fun p t hp => (o.types p t hp).2⟩
  · intro p f t hp ht; have := o.fields p f hp; rw [ht] at this; exact this
  · intro p f t hp ht; have := o.values p f hp; rw [ht] at this; exact this (fun h => nomatch h)
  · intro p m hp; have := o.methods p m hp; rwa [Signature.after_nil] at this
  · intro p m hp; have := o.funcs p m hp; rwa [Signature.after_nil] at this
  · intro p t hp
    have k := o.templs p t hp
    exact k.ready h

theorem Sane.toTypeName {h : Heap} (o : Sane σ h) {q : Ptr} {ts : TypeSpec} {t : TypeName} (hq : h.types q = some ts)
    (ht : ts.toTypeName h = .ok t) : t.valid = true := by
  rw [TypeSpec.toTypeName] at ht
  split at ht
  · cases ht; exact (o.types _ _ hq).1
  · obtain ⟨s, h1, ht⟩ := bind_eq_ok ht
    cases ht
    rfl

theorem Sane.allocFields (par : Ptr) : ∀ (fs : List FieldType) {h : Heap}, Sane σ h → validFields fs = true →
    Sane σ (Gopoet.allocFields h par fs).2 := by
  intro fs
  induction fs with
  | nil => intro h o _; exact o
  | cons f fs ih =>
    intro h o hv
    obtain ⟨n, t, tag⟩ := f
    simp only [validFields, Bool.and_eq_true] at hv
    refine ih ?_ hv.2
    exact { o with
      fields := upd_at o.fields (by
        have := hv.1
        cases t <;> first | exact this | simp [TypeName.valid] at this) }

theorem Sane.allocEmbeds (par : Ptr) : ∀ (es : List Symbol) {h : Heap}, Sane σ h →
    Sane σ (Gopoet.allocEmbeds h par es).2 := by
  intro es
  induction es with
  | nil => intro h o; exact o
  | cons e es ih => intro h o; exact ih { o with }

theorem Sane.allocMethods (par : Ptr) : ∀ (ms : List MethodType) {h : Heap}, Sane σ h → validMethods ms = true →
    (∀ q, h.next ≤ q → q < (Gopoet.allocMethods h par ms).2.next → σ (.method q) = []) →
    Sane σ (Gopoet.allocMethods h par ms).2 := by
  intro ms
  induction ms with
  | nil => intro h o _ _; exact o
  | cons m ms ih =>
    intro h o hv hσ
    obtain ⟨n, sig⟩ := m
    simp only [validMethods, Bool.and_eq_true] at hv
    have hlt : h.next + 1 ≤ (Gopoet.allocMethods { h with
        methods := upd h.methods h.next { name := n, signature := sig, parent := some par }
        next := h.next + 1 } par ms).2.next := by
      obtain ⟨⟨_, _, h1, h2, _⟩, _⟩ := allocMethods_spec ms { h with
        methods := upd h.methods h.next { name := n, signature := sig, parent := some par }
        next := h.next + 1 } par
      rw [h1]; exact h2
    refine ih ?_ hv.2 fun q hq hl => hσ q (by exact Nat.le_of_succ_le hq) hl
    exact { o with methods := upd_at o.methods (by
      rw [hσ h.next (Nat.le_refl _) hlt, Signature.after_nil]; exact hv.1) }

theorem Sane.newTypeSpec {h h' : Heap} (o : Sane σ h) {n : GoString} {t : TypeRef} {p : Ptr}
    (hn : Gopoet.newTypeSpec h n t = .ok (p, h')) (ht : t.Given)
    (hσ : ∀ q, h.next ≤ q → q < h'.next → σ (.method q) = []) : Sane σ h' := by
  have ob : Sane σ { h with next := h.next + 1 } := { o with }
  unfold Gopoet.newTypeSpec at hn
  split at hn
  · cases hn
  · obtain ⟨ts, h1, hn⟩ := bind_eq_ok hn
    obtain ⟨u, h2, hn⟩ := bind_eq_ok hn
    cases hn
    have hv := o.toTypeName (deref_eq_ok h1) h2
    have hq := o.types _ _ (deref_eq_ok h1)
    exact { o with types := upd_at o.types (by
      by_cases hnm : ts.name = []
      · rw [if_pos hnm]
        rw [TypeSpec.toTypeName, if_pos hnm] at h2
        cases h2
        exact ⟨hv, hq.2⟩
      · rw [if_neg hnm]
        exact ⟨hv, fun h => absurd rfl h, fun h => absurd rfl h⟩) }
  · split at hn
    · cases hn
    · cases hn
      have o' := ob.allocFields h.next _ ht
      exact { o' with types := upd_at o'.types ⟨ht, fun _ => ⟨_, rfl⟩, fun h => absurd rfl h⟩ }
    · rename_i ms es
      cases hn
      have hvm : validMethods ms = true := ht
      obtain ⟨⟨em, nx, h5, h6, _⟩, _⟩ := allocEmbeds_spec es { h with next := h.next + 1 } h.next
      have o' := (ob.allocEmbeds h.next es).allocMethods h.next ms hvm (by
        intro q hq hl
        refine hσ q ?_ hl
        rw [h5] at hq
        exact Nat.le_trans (Nat.le_of_succ_le h6) hq)
      exact { o' with types := upd_at o'.types ⟨ht, fun h => absurd rfl h, fun _ => ⟨_, _, rfl⟩⟩ }
    · rename_i hns hni
      cases hn
      exact { o with types := upd_at o.types ⟨ht, fun h => absurd rfl h, fun h => absurd rfl h⟩ }

theorem Sane.collectFields (par : Ptr) : ∀ (ps : List Ptr) {h h' : Heap} {fs : List FieldType}, Sane σ h →
    Gopoet.collectFields par h ps = .ok (fs, h') → Sane σ h' ∧ validFields fs = true := by
  intro ps
  induction ps with
  | nil => intro h h' fs o hc; cases hc; exact ⟨o, rfl⟩
  | cons p ps ih =>
    intro h h' fs o hc
    unfold Gopoet.collectFields at hc
    obtain ⟨f, h1, hc⟩ := bind_eq_ok hc
    obtain ⟨t, h2, hc⟩ := bind_eq_ok hc
    obtain ⟨⟨fs', g⟩, h3, hc⟩ := bind_eq_ok hc
    cases hc
    have hp := o.fields _ _ (deref_eq_ok h1)
    have og : Sane σ { h with fields := upd h.fields p { f with parent := some par } } :=
      { o with fields := upd_at o.fields hp }
    obtain ⟨h4, h5⟩ := ih og h3
    refine ⟨h4, ?_⟩
    simp only [validFields, Bool.and_eq_true]
    refine ⟨?_, h5⟩
    cases hty : f.type with
    | nil => rw [hty] at hp; exact hp.elim
    | name u => rw [hty] at h2; cases h2; rw [hty] at hp; exact hp
    | spec q =>
      rw [hty] at h2
      obtain ⟨ts, h6, h7⟩ := bind_eq_ok h2
      exact og.toTypeName (deref_eq_ok h6) h7

theorem Sane.collectElems (par : Ptr) : ∀ (es : List IfaceElem) {h h' : Heap} {ss : List Symbol}
    {ms : List MethodType}, Sane σ h → Gopoet.collectElems par h es = .ok (ss, ms, h') →
    (∀ q, .method q ∈ es → σ (.method q) = []) → Sane σ h' ∧ validMethods ms = true := by
  intro es
  induction es with
  | nil => intro h h' ss ms o hc _; cases hc; exact ⟨o, rfl⟩
  | cons e es ih =>
    intro h h' ss ms o hc hσ
    have hσ' : ∀ q, .method q ∈ es → σ (.method q) = [] := fun q hq => hσ q (.tail _ hq)
    cases e with
    | embed p =>
      unfold Gopoet.collectElems at hc
      obtain ⟨f, h1, hc⟩ := bind_eq_ok hc
      obtain ⟨⟨ss', ms', g⟩, h3, hc⟩ := bind_eq_ok hc
      cases hc
      exact ih (h := { h with embeds := upd h.embeds p { f with parent := some par } }) { o with } h3 hσ'
    | method p =>
      unfold Gopoet.collectElems at hc
      obtain ⟨f, h1, hc⟩ := bind_eq_ok hc
      obtain ⟨⟨ss', ms', g⟩, h3, hc⟩ := bind_eq_ok hc
      cases hc
      have hp := o.methods _ _ (deref_eq_ok h1)
      obtain ⟨h4, h6⟩ := ih (h := { h with methods := upd h.methods p { f with parent := some par } })
        { o with methods := upd_at o.methods hp } h3 hσ'
      refine ⟨h4, ?_⟩
      rw [hσ p (.head _), Signature.after_nil] at hp
      simp only [validMethods, Bool.and_eq_true]
      exact ⟨hp, h6⟩

theorem Sane.code {h h' : Heap} (o : Sane σ h) {cb cb' : CodeBlock} {c : CodeCall} (hc : c.exec cb h = .ok (cb', h'))
    (hr : ∀ t d, c = .renderCode t d → d.Plain) : Sane σ h' := by
  cases c with
  | renderCode t d =>
    cases hc
    exact { o with templs := upd_at (P := fun _ (t : Templ) => t.data.Plain) o.templs (hr t d rfl) }
  | addCode b =>
    obtain ⟨code, _, hc⟩ := bind_eq_ok hc
    cases hc
    exact o
  | _ => cases hc; exact { o with }

theorem Sane.newBlock {h h' : Heap} (o : Sane σ h) {p : Ptr} {c : Option CodeCall} (hc : Gopoet.newBlock h c = .ok (p, h'))
    (hr : ∀ t d, c = some (.renderCode t d) → d.Plain) : Sane σ h' := by
  unfold Gopoet.newBlock at hc
  cases c with
  | none => cases hc; exact { o with }
  | some c =>
    obtain ⟨⟨cb, h1⟩, h2, hn⟩ := bind_eq_ok hc
    cases hn
    have o' : Sane σ { h with blocks := upd h.blocks h.next [], next := h.next + 1 } := { o with }
    exact { o'.code h2 fun t d he => hr t d (by rw [he]) with }

theorem Sane.setParent {h h' : Heap} (o : Sane σ h) {f : Ptr} {e : FileElem} (he : e.setParent f h = .ok h') : Sane σ h' := by
  cases e with
  | values p =>
    obtain ⟨d, _, he⟩ := bind_eq_ok he
    obtain ⟨m, h1, he⟩ := bind_eq_ok he
    cases he
    exact { o with values := by refine setParents_at (P := fun _ (c : ValueSpec) => c.type ≠ .nil → c.type.Given) ?_ _ h1 o.values; exact fun _ _ h => h }
  | types p =>
    obtain ⟨d, _, he⟩ := bind_eq_ok he
    obtain ⟨m, h1, he⟩ := bind_eq_ok he
    cases he
    exact { o with types := (setParents_at (P := fun _ (ts : TypeSpec) => ts.underlying.valid = true ∧
      (ts.structBody ≠ [] → ∃ fs, ts.underlying = .struct fs) ∧
      (ts.interfaceBody ≠ [] → ∃ ms es, ts.underlying = .interface ms es)) (by exact fun _ _ h => h) _ h1 o.types) }
  | func p =>
    obtain ⟨m, h1, he⟩ := bind_eq_ok he
    cases he
    exact { o with funcs := (setParents_at (P := fun p (f : FuncSpec) => (f.signature.after (σ (.func p))).valid = true)
      (by exact fun _ _ h => h) _ h1 o.funcs) }

theorem Sane.addElement {h h' : Heap} (o : Sane σ h) {f : Ptr} {e : FileElem} (he : Gopoet.addElement h f e = .ok h') :
    Sane σ h' := by
  obtain ⟨g, h1, he⟩ := bind_eq_ok he
  obtain ⟨file, h2, he⟩ := bind_eq_ok he
  cases he
  have og := o.setParent h1
  have := og.files _ _ (deref_eq_ok h2)
  exact { og with files := upd_at og.files this }

/-- The changes of signatures that the calls make. -/
def sigsOf (cs : List BuildCall) (o : Obj) : List SigCall := cs.filterMap (·.sig? o)

theorem sigsOf_skip {c : BuildCall} {post : List BuildCall} (hc : ∀ o, c.sig? o = none) : sigsOf (c :: post) = sigsOf post := by
  funext o
  simp [sigsOf, hc o]

theorem Made.mem {cs : List BuildCall} {c : BuildCall} {g : Heap} {post : List BuildCall} (hm : Made cs c g post) : c ∈ cs := by
  obtain ⟨pre, rfl, _⟩ := hm
  simp

/-- A call keeps the heap sane. -/
theorem Sane.exec {cs : List BuildCall} {hf : Heap} (hb : Gopoet.build cs {} = .ok hf) (ho : InOrder cs) (hs : Sensible cs)
    {c : BuildCall} {h h' : Heap} {post : List BuildCall} (hm : Made cs c h post) (hc : c.exec h = .ok h')
    (o : Sane (sigsOf (c :: post)) h) : Sane (sigsOf post) h' := by
  have ht := hs.types c hm.mem
  have hl := hs.templates c hm.mem
  have hsame : (∀ o, c.sig? o = none) → Sane (sigsOf post) h := fun hn => by rwa [sigsOf_skip hn] at o
  have hnew : (∀ n, c ≠ .newInterfaceMethod n) → ∀ q, h.next ≤ q → q < h'.next → sigsOf post (.method q) = [] :=
    fun hn q h1 h2 => ho.no_sig hb hm hc hn h1 h2
  cases c with
  | newValue kind names =>
    replace o := hsame fun _ => rfl
    cases hc; exact { o with values := upd_at o.values (fun h => absurd rfl h) }
  | newValueDecl kind specs =>
    replace o := hsame fun _ => rfl
    cases hc; exact { o with }
  | newTypeDecl types =>
    replace o := hsame fun _ => rfl
    cases hc; exact { o with }
  | newTypeSpec n t =>
    replace o := hsame fun _ => rfl
    obtain ⟨p, hc⟩ := built_ok hc
    exact o.newTypeSpec hc ht (hnew fun _ h => nomatch h)
  | newTypeAlias n t =>
    replace o := hsame fun _ => rfl
    obtain ⟨p, hc⟩ := built_ok hc
    obtain ⟨h0, ts, h1, h2, rfl⟩ := C39_alias.1 hc
    have o' := o.newTypeSpec h1 ht (hnew fun _ h => nomatch h)
    have := o'.types _ _ h2
    exact { o' with types := upd_at o'.types this }
  | newStructTypeSpec n fs =>
    replace o := hsame fun _ => rfl
    obtain ⟨p, hc⟩ := built_ok hc
    obtain ⟨⟨ft, g⟩, h1, hn⟩ := bind_eq_ok hc
    cases hn
    obtain ⟨o', h2⟩ := Sane.collectFields h.next fs (h := { h with next := h.next + 1 }) { o with } h1
    exact { o' with types := upd_at o'.types ⟨h2, fun _ => ⟨_, rfl⟩, fun h => absurd rfl h⟩ }
  | newInterfaceTypeSpec n es =>
    replace o := hsame fun _ => rfl
    obtain ⟨p, hc⟩ := built_ok hc
    obtain ⟨⟨ss, ms, g⟩, h1, hn⟩ := bind_eq_ok hc
    cases hn
    obtain ⟨o', h3⟩ := Sane.collectElems h.next es (h := { h with next := h.next + 1 }) { o with } h1
      fun q hq => ho.iface_sig hm hq
    exact { o' with types := upd_at o'.types ⟨h3, fun h => absurd rfl h, fun _ => ⟨_, _, rfl⟩⟩ }
  | newField n t =>
    replace o := hsame fun _ => rfl
    cases hc; exact { o with fields := upd_at o.fields ht }
  | newInterfaceEmbed s =>
    replace o := hsame fun _ => rfl
    cases hc; exact { o with }
  | newInterfaceMethod n =>
    replace o := hsame fun _ => rfl
    cases hc
    exact { o with methods := upd_at o.methods (by
      have := hs.methods n h post hm
      rwa [← Signature.after_built] at this) }
  | newFunc r n =>
    replace o := hsame fun _ => rfl
    cases hc
    exact { o with funcs := upd_at o.funcs (by
      have := hs.funcs r n h post hm
      rwa [← Signature.after_built] at this) }
  | newBlock c =>
    replace o := hsame fun _ => rfl
    obtain ⟨p, hc⟩ := built_ok hc
    exact o.newBlock hc fun t d he => hl d (by rw [he]; rfl)
  | newFile n pp pn =>
    replace o := hsame fun _ => rfl
    obtain ⟨p, hc⟩ := built_ok hc
    obtain ⟨f, h1, hc⟩ := bind_eq_ok hc
    cases hc
    exact { o with files := upd_at o.files (by
      unfold newGoFile at h1
      repeat' split at h1
      all_goals cases h1
      exact hs.files n pp pn hm.mem) }
  | setComment ob c =>
    replace o := hsame fun _ => rfl
    cases ob <;> (obtain ⟨m, h1, hc⟩ := bind_eq_ok hc; cases hc)
    · exact { o with values := modAt_at (P := fun _ (c : ValueSpec) => c.type ≠ .nil → c.type.Given) h1 o.values fun _ _ h => h }
    · exact { o with }
    · exact { o with types := (modAt_at (P := fun _ (ts : TypeSpec) => ts.underlying.valid = true ∧
        (ts.structBody ≠ [] → ∃ fs, ts.underlying = .struct fs) ∧
        (ts.interfaceBody ≠ [] → ∃ ms es, ts.underlying = .interface ms es)) h1 o.types fun _ _ h => h) }
    · exact { o with }
    · exact { o with fields := modAt_at (P := fun _ (f : FieldSpec) => f.type.Given) h1 o.fields fun _ _ h => h }
    · exact { o with }
    · exact { o with methods := (modAt_at (P := fun p (m : InterfaceMethod) =>
        (m.signature.after (sigsOf post (.method p))).valid = true) h1 o.methods fun _ _ h => h) }
    · exact { o with funcs := (modAt_at (P := fun p (m : FuncSpec) =>
        (m.signature.after (sigsOf post (.func p))).valid = true) h1 o.funcs fun _ _ h => h) }
  | setType p t =>
    replace o := hsame fun _ => rfl
    obtain ⟨m, h1, hc⟩ := bind_eq_ok hc; cases hc
    exact { o with values := modAt_at (P := fun _ (c : ValueSpec) => c.type ≠ .nil → c.type.Given) h1 o.values fun _ _ _ => ht }
  | setInitializer p b =>
    replace o := hsame fun _ => rfl
    obtain ⟨m, h1, hc⟩ := bind_eq_ok hc; cases hc
    exact { o with values := modAt_at (P := fun _ (c : ValueSpec) => c.type ≠ .nil → c.type.Given) h1 o.values fun _ _ h => h }
  | initWith p format args =>
    replace o := hsame fun _ => rfl
    obtain ⟨⟨q, g⟩, h1, hc⟩ := bind_eq_ok hc
    have o' := o.newBlock h1 fun t d he => nomatch he
    obtain ⟨m, h1, hc⟩ := bind_eq_ok hc; cases hc
    exact { o' with values := modAt_at (P := fun _ (c : ValueSpec) => c.type ≠ .nil → c.type.Given) h1 o'.values fun _ _ h => h }
  | setTag p tag =>
    replace o := hsame fun _ => rfl
    obtain ⟨m, h1, hc⟩ := bind_eq_ok hc; cases hc
    exact { o with fields := modAt_at (P := fun _ (f : FieldSpec) => f.type.Given) h1 o.fields fun _ _ h => h }
  | methodSig p c =>
    obtain ⟨m, h1, hc⟩ := bind_eq_ok hc; cases hc
    unfold modAt at h1
    split at h1
    · rename_i a ha
      cases h1
      refine { o with methods := ?_, funcs := ?_ }
      · intro q b hb'
        by_cases hq : q = p
        · subst hq
          simp only [upd_same, Option.some.injEq] at hb'
          subst hb'
          have := o.methods q a ha
          rw [sigsOf, List.filterMap_cons_some (b := c) (by simp [BuildCall.sig?]), Signature.after_cons] at this
          exact this
        · simp only [upd_ne _ _ hq] at hb'
          have := o.methods q b hb'
          rwa [sigsOf, List.filterMap_cons_none (by simp [BuildCall.sig?, Ne.symm hq])] at this
      · intro q b hb'
        have := o.funcs q b hb'
        rwa [sigsOf, List.filterMap_cons_none (by simp [BuildCall.sig?])] at this
    · cases h1
  | funcSig p c =>
    obtain ⟨m, h1, hc⟩ := bind_eq_ok hc; cases hc
    unfold modAt at h1
    split at h1
    · rename_i a ha
      cases h1
      refine { o with methods := ?_, funcs := ?_ }
      · intro q b hb'
        have := o.methods q b hb'
        rwa [sigsOf, List.filterMap_cons_none (by simp [BuildCall.sig?])] at this
      · intro q b hb'
        by_cases hq : q = p
        · subst hq
          simp only [upd_same, Option.some.injEq] at hb'
          subst hb'
          have := o.funcs q a ha
          rw [sigsOf, List.filterMap_cons_some (b := c) (by simp [BuildCall.sig?]), Signature.after_cons] at this
          exact this
        · simp only [upd_ne _ _ hq] at hb'
          have := o.funcs q b hb'
          rwa [sigsOf, List.filterMap_cons_none (by simp [BuildCall.sig?, Ne.symm hq])] at this
    · cases h1
  | funcCode p c =>
    replace o := hsame fun _ => rfl
    obtain ⟨f, h1, hc⟩ := bind_eq_ok hc
    obtain ⟨⟨cb, g⟩, h2, hc⟩ := bind_eq_ok hc
    cases hc
    have o' := o.code h2 fun t d he => hl d (by rw [he]; rfl)
    have := o.funcs _ _ (deref_eq_ok h1)
    exact { o' with funcs := upd_at o'.funcs this }
  | blockCode p c =>
    replace o := hsame fun _ => rfl
    obtain ⟨f, h1, hc⟩ := bind_eq_ok hc
    obtain ⟨⟨cb, g⟩, h2, hc⟩ := bind_eq_ok hc
    cases hc
    exact { o.code h2 fun t d he => hl d (by rw [he]; rfl) with }
  | fileField p k s =>
    replace o := hsame fun _ => rfl
    obtain ⟨m, h1, hc⟩ := bind_eq_ok hc; cases hc
    exact { o with files := modAt_at (P := fun _ (f : GoFile) => f.package.importPath ≠ []) h1 o.files (by
      intro _ a h; cases k <;> exact h) }
  | addElement f e =>
    replace o := hsame fun _ => rfl
    exact o.addElement hc
  | addValue f kind s =>
    replace o := hsame fun _ => rfl
    exact Sane.addElement (h := { h with valueDecls := upd h.valueDecls h.next { kind, specs := [s] }, next := h.next + 1 }) { o with } hc
  | addType f t =>
    replace o := hsame fun _ => rfl
    exact Sane.addElement (h := { h with typeDecls := upd h.typeDecls h.next { types := [t] }, next := h.next + 1 }) { o with } hc
  | declAddValue d s =>
    replace o := hsame fun _ => rfl
    obtain ⟨D, h1, hc⟩ := bind_eq_ok hc; cases hc
    exact { o with }
  | declAddType d s =>
    replace o := hsame fun _ => rfl
    obtain ⟨D, h1, hc⟩ := bind_eq_ok hc; cases hc
    exact { o with }

theorem Sane.build {cs : List BuildCall} {hf : Heap} (hb : Gopoet.build cs {} = .ok hf) (ho : InOrder cs) (hs : Sensible cs) :
    ∀ {post pre : List BuildCall} {h : Heap}, cs = pre ++ post → Gopoet.build pre {} = .ok h → Gopoet.build post h = .ok hf →
      Sane (sigsOf post) h → Sane (sigsOf []) hf := by
  intro post
  induction post with
  | nil => intro pre h _ _ hp o; cases hp; exact o
  | cons c post ih =>
    intro pre h he hpre hp o
    obtain ⟨g, h1, hp⟩ := bind_eq_ok hp
    refine ih (pre := pre ++ [c]) (by simp [he]) ?_ hp (o.exec hb ho hs ⟨pre, he, hpre⟩ h1)
    rw [build_append, hpre]
    show (c.exec h).bind _ = _
    rw [h1]
    rfl

/-- What sensible calls in order have built is sound, has plain template data, and no file with empty path. -/
theorem build_sound {cs : List BuildCall} {h : Heap} (hb : Gopoet.build cs {} = .ok h) (ho : InOrder cs) (hs : Sensible cs) :
    h.Sound ∧ h.PlainBodies ∧ (∀ p t, h.templs p = some t → t.data.Plain) ∧ ∀ p f, h.files p = some f → f.package.importPath ≠ [] := by
  have o := Sane.build hb ho hs (pre := []) rfl rfl hb .empty
  have ha := (Only.build (M := fun _ => True) (A := Arg.TypesValid) (fun _ => trivial) .empty hb (fun _ _ _ _ => trivial) hs.args).args
  obtain ⟨h1, h2⟩ := Sane.sound o fun p l hp a hl => (ha p l hp a hl).1
  exact ⟨h1, h2, o.templs, o.files⟩

end Gopoet
