import Verif.Model.Output
import Verif.Proof.QualifyLemmas
import Verif.Proof.GoTypesLemmas
import Verif.Spec.Written
/-! What a qualification pass can do to the heap and to the imports: a sequence of small steps. -/

namespace Gopoet
open Imports

@[simp] theorem upd_same {α} (m : Ptr → Option α) (p : Ptr) (a : α) : upd m p a p = some a := by
  simp [upd]

theorem upd_ne {α} (m : Ptr → Option α) {p q : Ptr} (a : α) (h : q ≠ p) : upd m p a q = m q := by
  simp [upd, h]

theorem upd_eq_self {α} {m : Ptr → Option α} {p : Ptr} {a : α} (h : m p = some a) :
    upd m p a = m := by
  funext q
  by_cases hq : q = p
  · subst hq; simp [h]
  · exact upd_ne m a hq

theorem deref_eq_ok {α} {m : Ptr → Option α} {p : Ptr} {a : α} (h : deref m p = .ok a) :
    m p = some a := by
  rw [deref] at h
  split at h
  · rename_i hx; cases h; exact hx
  · simp at h

/-- Packages on the heap that are registered even if they have neither path nor name: those of
files, those that arguments hand over, and those in template data. -/
inductive Handed (h : Heap) : Package → Prop
  | file {p f} : h.files p = some f → Handed h f.package
  | arg {p l a pk} : h.args p = some l → a ∈ l → pk ∈ a.handed → Handed h pk
  | templ {p t pk} : h.templs p = some t → pk ∈ (TVal.iface acceptsAll t.data).packages → Handed h pk

/-- Packages that a qualification pass can register: those that are mentioned, but of those with
neither path nor name only such as are handed over. -/
def Registrable (h : Heap) (pk : Package) : Prop := Mentioned h pk ∧ (pk = ⟨[], []⟩ → Handed h pk)

/-- One step of a qualification pass. -/
inductive QStep (h : Heap) (i : Imports) : Heap → Imports → Prop
  | imports {j} : Evolves (Registrable h) i j → QStep h i h j
  | type {p ts u j} : h.types p = some ts → ensureTypeImported ts.underlying i = (.ok u, j) →
      QStep h i { h with types := upd h.types p { ts with underlying := u } } j
  | field {p f t t' j} : h.fields p = some f → f.type = .name t →
      ensureTypeImported t i = (.ok t', j) →
      QStep h i { h with fields := upd h.fields p { f with type := .name t' } } j
  | embed {p e s j} : h.embeds p = some e → ensureImported e.type i = (.ok s, j) →
      QStep h i { h with embeds := upd h.embeds p { e with type := s } } j
  | method {p m s j} : h.methods p = some m → ensureAllTypesImported m.signature i = (.ok s, j) →
      QStep h i { h with methods := upd h.methods p { m with signature := s } } j
  | value {p c t t' j} : h.values p = some c → c.type = .name t →
      ensureTypeImported t i = (.ok t', j) →
      QStep h i { h with values := upd h.values p { c with type := .name t' } } j
  | func {p f s j} : h.funcs p = some f → ensureAllTypesImported f.signature i = (.ok s, j) →
      QStep h i { h with funcs := upd h.funcs p { f with signature := s } } j
  | args {p l l' o j} : h.args p = some l → qualifyArgList h l i = (o, l', j) →
      QStep h i { h with args := upd h.args p l' } j
  | templ {p t d j} : h.templs p = some t → qualifyTemplateData h t.data i = (.ok d, j) →
      QStep h i { h with templs := upd h.templs p { t with data := d } } j

/-- Any number of steps. -/
inductive QSteps : Heap → Imports → Heap → Imports → Prop
  | refl (h i) : QSteps h i h i
  | step {h i h' i' h'' i''} : QSteps h i h' i' → QStep h' i' h'' i'' → QSteps h i h'' i''

theorem QSteps.trans {h i h' i' h'' i''} (a : QSteps h i h' i') (b : QSteps h' i' h'' i'') :
    QSteps h i h'' i'' := by
  induction b with
  | refl => exact a
  | step _ s ih => exact .step ih s

theorem QStep.steps {h i h' i'} (a : QStep h i h' i') : QSteps h i h' i' := .step (.refl _ _) a

/-- Running `x` makes steps only. -/
def QM.Steps {α} (x : QM α) : Prop := ∀ h i, QSteps h i (x h i).2.1 (x h i).2.2

namespace QM.Steps
variable {α β : Type}

theorem ret (a : α) : QM.Steps (QM.ret a) := fun _ _ => .refl _ _
theorem panic : QM.Steps (QM.panic : QM α) := fun _ _ => .refl _ _
theorem hang : QM.Steps (QM.hang : QM α) := fun _ _ => .refl _ _

theorem bind_at {x : QM α} {f : α → QM β} {h i} (hx : QSteps h i (x h i).2.1 (x h i).2.2)
    (hf : ∀ a h' i', x h i = (.ok a, h', i') → QSteps h' i' (f a h' i').2.1 (f a h' i').2.2) :
    QSteps h i (QM.bind x f h i).2.1 (QM.bind x f h i).2.2 := by
  unfold QM.bind
  rcases hxe : x h i with ⟨_ | _ | _, h', i'⟩ <;> rw [hxe] at hx
  · exact hx.trans (hf _ _ _ hxe)
  · exact hx
  · exact hx

theorem bind {x : QM α} {f : α → QM β} (hx : QM.Steps x) (hf : ∀ a, QM.Steps (f a)) :
    QM.Steps (QM.bind x f) :=
  fun h i => bind_at (hx h i) fun a h' i' _ => hf a h' i'

theorem read (m : Heap → Ptr → Option α) (p : Ptr) : QM.Steps (QM.read m p) :=
  fun _ _ => .refl _ _

/-- after a read, the value read is known -/
theorem bind_read {m : Heap → Ptr → Option α} {p : Ptr} {f : α → QM β}
    (hf : ∀ h i a, m h p = some a → QSteps h i (f a h i).2.1 (f a h i).2.2) :
    QM.Steps (QM.bind (QM.read m p) f) := by
  intro h i
  refine bind_at (.refl _ _) fun a h' i' he => ?_
  simp only [QM.read, deref] at he
  split at he
  · rename_i b hb
    simp only [Prod.mk.injEq, Outcome.ok.injEq] at he
    obtain ⟨rfl, rfl, rfl⟩ := he
    exact hf _ _ _ hb
  · simp at he

theorem forEach {f : α → QM Unit} (hf : ∀ a, QM.Steps (f a)) : ∀ l, QM.Steps (QM.forEach f l)
  | [] => ret ()
  | a :: l => bind (hf a) fun _ => forEach hf l

/-- a lift followed by something that may use its result -/
theorem lift_at {x : Heap → IM α} {f : α → QM β} {h i}
    (hx : Runs (Registrable h) (x h))
    (hf : ∀ a i', x h i = (.ok a, i') → QSteps h i (f a h i').2.1 (f a h i').2.2) :
    QSteps h i (QM.bind (QM.lift x) f h i).2.1 (QM.bind (QM.lift x) f h i).2.2 := by
  have hi := hx i
  unfold QM.bind QM.lift
  rcases hxe : x h i with ⟨_ | _ | _, i'⟩ <;> rw [hxe] at hi
  · exact hf _ _ hxe
  · exact QStep.steps (.imports hi)
  · exact QStep.steps (.imports hi)

/-- the same, if a write comes next -/
theorem lift_modify {x : Heap → IM α} {g : α → Heap → Heap} {f : α → QM β} {h i}
    (hx : Runs (Registrable h) (x h))
    (hg : ∀ a i', x h i = (.ok a, i') → QStep h i (g a h) i')
    (hf : ∀ a i', QSteps (g a h) i' (f a (g a h) i').2.1 (f a (g a h) i').2.2) :
    QSteps h i (QM.bind (QM.lift x) (fun a => QM.bind (QM.modify (g a)) fun _ => f a) h i).2.1
      (QM.bind (QM.lift x) (fun a => QM.bind (QM.modify (g a)) fun _ => f a) h i).2.2 :=
  lift_at hx fun a i' he => (hg a i' he).steps.trans (hf a i')

end QM.Steps

/-! ### Nothing but registrations happens to the imports -/

theorem runs_true {α} {P : Package → Prop} {x : IM α} (h : Runs P x) : Runs (fun _ => True) x :=
  h.mono fun _ _ => trivial

theorem Runs.bind_lift {α β} {P : Package → Prop} {x : Outcome α} {f : α → IM β}
    (hf : ∀ a, x = .ok a → Runs P (f a)) : Runs P (IM.lift x >>= f) := by
  cases x with
  | ok a => exact fun i => hf a rfl i
  | panic => exact fun i => .refl i
  | hang => exact fun i => .refl i

theorem runs_registerPackage (p : Package) : Runs (· = p) (registerPackage p) :=
  Runs.bind ((runs_prefixForPackage _ _ _).mono fun _ h => h.2) fun _ => Runs.pure _

theorem runs_ensureImported (s : Symbol) : Runs (· = s.package) (ensureImported s) :=
  (runs_qualify s true).mono fun _ h => h.2.2

theorem pkgsOf_mem {r l pk} (h : pkgsOf r l pk) : pk ∈ l.map (·.package) := by
  obtain ⟨_, s, h1, _, h2⟩ := h
  exact List.mem_map.2 ⟨s, h1, h2⟩

theorem runs_ensureTypeImported (t : TypeName) :
    Runs (· ∈ t.symbols.map (·.package)) (ensureTypeImported t) :=
  Runs.bind ((runs_qualifyType true t).mono fun _ h => pkgsOf_mem h) fun _ => Runs.pure _

theorem runs_ensureAllTypesImported (s : Signature) :
    Runs (· ∈ s.symbols.map (·.package)) (ensureAllTypesImported s) :=
  Runs.bind ((runs_qualifySignature true s).mono fun _ h => pkgsOf_mem h) fun _ => Runs.pure _

theorem runs_embedQualify (e : InterfaceEmbed) : Runs (· = e.type.package) e.qualify :=
  Runs.bind (runs_ensureImported _) fun _ => Runs.pure _

theorem runs_methodQualify (m : InterfaceMethod) :
    Runs (· ∈ m.signature.symbols.map (·.package)) m.qualify :=
  Runs.bind ((runs_qualifySignature true _).mono fun _ h => pkgsOf_mem h) fun _ => Runs.pure _

/-- One of the packages in `l`, but not that without path and name. -/
def Named (l : List Package) (pk : Package) : Prop := pk ∈ l ∧ pk ≠ ⟨[], []⟩

theorem pkgsOf_named {r l pk} (h : pkgsOf r l pk) : Named (l.map (·.package)) pk := by
  refine ⟨pkgsOf_mem h, fun he => ?_⟩
  obtain ⟨_, s, _, h2, h3⟩ := h
  exact h2 (by simp [Symbol.isBuiltin, h3, he])

theorem named_ensureImported (s : Symbol) : Runs (Named [s.package]) (ensureImported s) :=
  (runs_qualify s true).mono fun _ h => ⟨by simp [h.2.2], fun he => h.2.1 (by
    simp [Symbol.isBuiltin, ← h.2.2, he])⟩

theorem named_ensureTypeImported (t : TypeName) :
    Runs (Named (t.symbols.map (·.package))) (ensureTypeImported t) :=
  Runs.bind ((runs_qualifyType true t).mono fun _ h => pkgsOf_named h) fun _ => Runs.pure _

theorem named_ensureAllTypesImported (s : Signature) :
    Runs (Named (s.symbols.map (·.package))) (ensureAllTypesImported s) :=
  Runs.bind ((runs_qualifySignature true s).mono fun _ h => pkgsOf_named h) fun _ => Runs.pure _

theorem named_embedQualify (e : InterfaceEmbed) : Runs (Named [e.type.package]) e.qualify :=
  Runs.bind (named_ensureImported _) fun _ => Runs.pure _

theorem named_methodQualify (m : InterfaceMethod) :
    Runs (Named (m.signature.symbols.map (·.package))) m.qualify :=
  Runs.bind ((runs_qualifySignature true _).mono fun _ h => pkgsOf_named h) fun _ => Runs.pure _

/-- The package of what a symbol or method reference names. -/
def SymbolOrMethodRef.package : SymbolOrMethodRef → Package
  | .symbol s => s.package
  | .method m => m.type.package

theorem runs_qualifySymOrRef (o : Arg) (s : SymbolOrMethodRef) :
    Runs (· = s.package) (qualifySymOrRef o s) := by
  cases s with
  | symbol s => exact Runs.bind (runs_ensureImported _) fun _ => Runs.pure _
  | method m =>
    exact Runs.bind (runs_ensureImported _) fun _ => Runs.ite (Runs.pure _) (Runs.pure _)

theorem named_qualifySymOrRef (o : Arg) (s : SymbolOrMethodRef) :
    Runs (Named [s.package]) (qualifySymOrRef o s) := by
  cases s with
  | symbol s => exact Runs.bind (named_ensureImported _) fun _ => Runs.pure _
  | method m =>
    exact Runs.bind (named_ensureImported _) fun _ => Runs.ite (Runs.pure _) (Runs.pure _)

/-- The package of some file. -/
def FilePkg (h : Heap) (pk : Package) : Prop := ∃ p f, h.files p = some f ∧ f.package = pk

theorem filePkg_packageAt {h : Heap} {p : Ptr} {pk : Package} (hp : packageAt h p = .ok pk) :
    FilePkg h pk := by
  obtain ⟨f, h1, h2⟩ := bind_eq_ok hp
  cases h2
  exact ⟨p, f, deref_eq_ok h1, rfl⟩

theorem filePkg_value {h : Heap} {c : ValueSpec} {s : Symbol} (hp : c.toSymbol h = .ok s) :
    FilePkg h s.package := by
  unfold ValueSpec.toSymbol ValueSpec.symbolAt at hp
  split at hp
  · simp at hp
  · split at hp
    · simp at hp
    · split at hp
      · simp at hp
      · obtain ⟨p, h1, h2⟩ := bind_eq_ok hp
        cases h2
        exact filePkg_packageAt h1

theorem filePkg_type {h : Heap} {c : TypeSpec} {s : Symbol} (hp : c.toSymbol h = .ok s) :
    FilePkg h s.package := by
  unfold TypeSpec.toSymbol at hp
  split at hp
  · simp at hp
  · split at hp
    · simp at hp
    · obtain ⟨p, h1, h2⟩ := bind_eq_ok hp
      cases h2
      exact filePkg_packageAt h1

theorem filePkg_func {h : Heap} {c : FuncSpec} {s : SymbolOrMethodRef} (hp : c.toSymbol h = .ok s) :
    FilePkg h s.package := by
  unfold FuncSpec.toSymbol at hp
  split at hp
  · simp at hp
  · obtain ⟨p, h1, h2⟩ := bind_eq_ok hp
    cases hr : c.receiver <;> rw [hr] at h2 <;> cases h2 <;> exact filePkg_packageAt h1

theorem filePkg_method {h : Heap} {c : InterfaceMethod} {s : MethodReference}
    (hp : c.toMethodRef h = .ok s) : FilePkg h s.type.package := by
  unfold InterfaceMethod.toMethodRef at hp
  split at hp
  · simp at hp
  · obtain ⟨p, h1, h2⟩ := bind_eq_ok hp
    obtain ⟨q, h3, h4⟩ := bind_eq_ok h2
    cases h4
    exact filePkg_type h3

theorem objectRefs_ok {o : Outcome SymbolOrMethodRef} {s : SymbolOrMethodRef} (h : o = .ok s) :
    objectRefs o = [s.package] := by
  subst h; cases s <;> rfl

/-- What qualification of an argument can register: what the argument carries, and packages of
files. -/
def ArgPkg (h : Heap) (a : Arg) (pk : Package) : Prop := pk ∈ a.packages ∨ FilePkg h pk

theorem runs_qualifyArg (h : Heap) (a : Arg) : Runs (ArgPkg h a) (qualifyArg h a) := by
  cases a <;> rw [qualifyArg]
  case package | packagePtr =>
    exact Runs.bind ((runs_registerPackage _).mono (by simp [ArgPkg, Arg.packages]))
      fun _ => Runs.ite (Runs.pure _) (Runs.pure _)
  case symbol | symbolPtr =>
    exact Runs.bind ((runs_ensureImported _).mono (by simp [ArgPkg, Arg.packages])) fun _ => Runs.pure _
  case mref | mrefPtr =>
    exact (runs_qualifySymOrRef _ _).mono (by simp [ArgPkg, Arg.packages, SymbolOrMethodRef.package])
  case sig | sigPtr =>
    exact Runs.bind ((runs_ensureAllTypesImported _).mono fun _ h => .inl h) fun _ => Runs.pure _
  case typeName =>
    exact Runs.bind ((runs_ensureTypeImported _).mono fun _ h => .inl h) fun _ => Runs.pure _
  case value p =>
    refine Runs.bind_lift fun s hs => (runs_qualifySymOrRef _ _).mono fun pk hpk => .inr ?_
    obtain ⟨c, _, h2⟩ := bind_eq_ok hs
    subst hpk; exact filePkg_value h2
  case typeSpec p =>
    refine Runs.bind_lift fun s hs => (runs_qualifySymOrRef _ _).mono fun pk hpk => .inr ?_
    obtain ⟨c, _, h2⟩ := bind_eq_ok hs
    subst hpk; exact filePkg_type h2
  case ifaceMethod p =>
    refine Runs.bind_lift fun s hs => (runs_qualifySymOrRef _ _).mono fun pk hpk => .inr ?_
    obtain ⟨c, _, h2⟩ := bind_eq_ok hs
    subst hpk; exact filePkg_method h2
  case func p =>
    refine Runs.bind_lift fun s hs => (runs_qualifySymOrRef _ _).mono fun pk hpk => .inr ?_
    obtain ⟨c, _, h2⟩ := bind_eq_ok hs
    subst hpk; exact filePkg_func h2
  case goObject =>
    refine Runs.bind_lift fun s hs => (runs_qualifySymOrRef _ _).mono fun pk hpk => .inl ?_
    rw [Arg.packages, objectRefs_ok hs, hpk]; simp
  case reflectType | goType =>
    refine Runs.bind_lift fun t ht => Runs.bind ((runs_ensureTypeImported _).mono fun pk hpk => .inl ?_)
      fun _ => Runs.pure _
    rw [Arg.packages, ht]; exact hpk
  case goPackage =>
    refine Runs.bind_lift fun t ht => Runs.bind ((runs_registerPackage _).mono fun pk hpk => .inl ?_)
      fun _ => Runs.pure _
    cases ht; rw [hpk]; simp [Arg.packages]
  all_goals first | exact Runs.pure _ | (intros; simp_all)

/-- The same, with what is known of packages without path and name. -/
def ArgNamed (h : Heap) (a : Arg) (pk : Package) : Prop :=
  Named a.packages pk ∨ pk ∈ a.handed ∧ pk ∈ a.packages ∨ FilePkg h pk

theorem named_qualifyArg (h : Heap) (a : Arg) : Runs (ArgNamed h a) (qualifyArg h a) := by
  cases a <;> rw [qualifyArg]
  case package | packagePtr =>
    exact Runs.bind ((runs_registerPackage _).mono (by
        simp [ArgNamed, Arg.packages, Arg.handed]))
      fun _ => Runs.ite (Runs.pure _) (Runs.pure _)
  case symbol | symbolPtr =>
    exact Runs.bind ((named_ensureImported _).mono fun _ h => .inl h) fun _ => Runs.pure _
  case mref | mrefPtr =>
    exact (named_qualifySymOrRef _ _).mono fun _ h => .inl h
  case sig | sigPtr =>
    exact Runs.bind ((named_ensureAllTypesImported _).mono fun _ h => .inl h) fun _ => Runs.pure _
  case typeName =>
    exact Runs.bind ((named_ensureTypeImported _).mono fun _ h => .inl h) fun _ => Runs.pure _
  case value p =>
    refine Runs.bind_lift fun s hs => (runs_qualifySymOrRef _ _).mono fun pk hpk => .inr (.inr ?_)
    obtain ⟨c, _, h2⟩ := bind_eq_ok hs
    subst hpk; exact filePkg_value h2
  case typeSpec p =>
    refine Runs.bind_lift fun s hs => (runs_qualifySymOrRef _ _).mono fun pk hpk => .inr (.inr ?_)
    obtain ⟨c, _, h2⟩ := bind_eq_ok hs
    subst hpk; exact filePkg_type h2
  case ifaceMethod p =>
    refine Runs.bind_lift fun s hs => (runs_qualifySymOrRef _ _).mono fun pk hpk => .inr (.inr ?_)
    obtain ⟨c, _, h2⟩ := bind_eq_ok hs
    subst hpk; exact filePkg_method h2
  case func p =>
    refine Runs.bind_lift fun s hs => (runs_qualifySymOrRef _ _).mono fun pk hpk => .inr (.inr ?_)
    obtain ⟨c, _, h2⟩ := bind_eq_ok hs
    subst hpk; exact filePkg_func h2
  case goObject =>
    refine Runs.bind_lift fun s hs => (named_qualifySymOrRef _ _).mono fun pk hpk => .inl ?_
    rw [Arg.packages, objectRefs_ok hs]; exact hpk
  case reflectType | goType =>
    refine Runs.bind_lift fun t ht => Runs.bind ((named_ensureTypeImported _).mono fun pk hpk => .inl ?_)
      fun _ => Runs.pure _
    rw [Arg.packages, ht]; exact hpk
  case goPackage =>
    refine Runs.bind_lift fun t ht => Runs.bind ((runs_registerPackage _).mono fun pk hpk => .inr (.inl ?_))
      fun _ => Runs.pure _
    cases ht; rw [hpk]; simp [Arg.packages, Arg.handed]
  all_goals first | exact Runs.pure _ | (intros; simp_all)

theorem named_qualifyArgList (h : Heap) : ∀ (l : List Arg) (i : Imports),
    Evolves (fun pk => ∃ a ∈ l, ArgNamed h a pk) i (qualifyArgList h l i).2.2
  | [], i => .refl _
  | a :: l, i => by
    have h1 := (named_qualifyArg h a i).mono (Q := fun pk => ∃ b ∈ a :: l, ArgNamed h b pk)
      fun pk hpk => ⟨a, by simp, hpk⟩
    rw [qualifyArgList]
    rcases ha : qualifyArg h a i with ⟨_ | _ | _, i'⟩ <;> rw [ha] at h1
    · exact h1.trans ((named_qualifyArgList h l i').mono fun pk ⟨b, hb, hpk⟩ => ⟨b, by simp [hb], hpk⟩)
    · exact h1
    · exact h1

theorem evolves_qualifyArgList (h : Heap) : ∀ (l : List Arg) (i : Imports),
    Evolves (fun pk => ∃ a ∈ l, ArgPkg h a pk) i (qualifyArgList h l i).2.2 ∧
      (qualifyArgList h l i).2.1.length = l.length
  | [], i => ⟨.refl _, rfl⟩
  | a :: l, i => by
    have h1 := (runs_qualifyArg h a i).mono (Q := fun pk => ∃ b ∈ a :: l, ArgPkg h b pk)
      fun pk hpk => ⟨a, by simp, hpk⟩
    rw [qualifyArgList]
    rcases ha : qualifyArg h a i with ⟨_ | _ | _, i'⟩ <;> rw [ha] at h1
    · have h2 := evolves_qualifyArgList h l i'
      exact ⟨h1.trans (h2.1.mono fun pk ⟨b, hb, hpk⟩ => ⟨b, by simp [hb], hpk⟩), by simp [h2.2]⟩
    · exact ⟨h1, rfl⟩
    · exact ⟨h1, rfl⟩

theorem runs_qualifySpecIn (r : SpecRef) (o : TVal) (p : Package) :
    Runs (· = p) (qualifySpecIn r o p) :=
  Runs.bind (runs_registerPackage _) fun _ => Runs.ite (Runs.pure _) (Runs.pure _)

theorem runs_qualifyConverted (acc : Accepts) (o : TVal) (t : Outcome TypeName) :
    Runs (· ∈ convertedRefs t) (qualifyConverted acc o t) :=
  Runs.bind_lift fun t ht => Runs.bind ((runs_qualifyType _ _).mono fun _ h => by
      rw [ht]; exact pkgsOf_mem h) fun _ => Runs.ite (Runs.pure _) (Runs.pure _)

theorem runs_qualifyObject (acc : Accepts) (o : TVal) (s : SymbolOrMethodRef) :
    Runs (· = s.package) (qualifyObject acc o s) := by
  cases s <;>
  exact Runs.bind (runs_ensureImported _) fun _ => Runs.ite (Runs.pure _) (Runs.pure _)

/-- What qualification of template data can register. -/
def DataPkg (h : Heap) (l : List Package) (pk : Package) : Prop := pk ∈ l ∨ FilePkg h pk

theorem DataPkg.sub {h : Heap} {l l' : List Package} (hl : ∀ pk ∈ l, pk ∈ l') :
    ∀ pk, DataPkg h l pk → DataPkg h l' pk := fun pk hpk => hpk.imp_left (hl pk)

theorem dataPkg_mem {h : Heap} {l : List Package} : ∀ pk, pk ∈ l → DataPkg h l pk := fun _ => .inl
theorem dataPkg_one {h : Heap} {p : Package} : ∀ pk, pk = p → DataPkg h [p] pk :=
  fun _ hp => .inl (by simp [hp])

mutual
theorem runs_qualifyData (h : Heap) (addr : Bool) : ∀ v, Runs (DataPkg h v.packages) (qualifyData h addr v)
  | .iface acc v => by
    cases v
    case typeName | reflectType | goType =>
      simp only [qualifyData]
      exact (runs_qualifyConverted _ _ _).mono fun pk hpk => .inl (by
        rw [TVal.packages]; exact hpk)
    case goObject =>
      simp only [qualifyData]
      refine Runs.bind_lift fun s hs => (runs_qualifyObject _ _ _).mono fun pk hpk => .inl ?_
      rw [TVal.packages, objectRefs_ok hs, hpk]; simp
    case goPackage =>
      simp only [qualifyData]
      refine Runs.bind_lift fun t ht => Runs.bind ((runs_registerPackage _).mono fun pk hpk => .inl ?_)
        fun _ => Runs.ite (Runs.pure _) (Runs.pure _)
      cases ht; rw [hpk]; simp [TVal.packages]
    all_goals
      rw [qualifyData]
      all_goals first
        | exact Runs.bind ((runs_qualifyData h false _).mono
            (DataPkg.sub (by intro pk hpk; rw [TVal.packages] <;> first | exact hpk | simp))) fun _ => Runs.pure _
        | (intros; simp_all)
  | .package p => by
    rw [qualifyData]
    exact Runs.bind ((runs_registerPackage _).mono dataPkg_one) fun _ => Runs.ite (Runs.pure _) (Runs.pure _)
  | .symbol s => by
    rw [qualifyData]; exact Runs.bind ((runs_ensureImported _).mono dataPkg_one) fun _ => Runs.pure _
  | .mref m => by
    rw [qualifyData]; exact Runs.bind ((runs_ensureImported _).mono dataPkg_one) fun _ => Runs.pure _
  | .signature s => by
    rw [qualifyData]
    exact Runs.bind ((runs_qualifySignature _ _).mono fun _ h => .inl (pkgsOf_mem h)) fun _ => Runs.pure _
  | .spec r => by
    rw [qualifyData]
    refine Runs.bind (Runs.lift _) fun a => ?_
    cases a with
    | none => exact Runs.pure _
    | some f =>
      exact Runs.bind_lift fun f hf => (runs_qualifySpecIn _ _ _).mono fun pk hpk =>
        .inr ⟨_, f, deref_eq_ok hf, hpk.symm⟩
  | .specCopy r pkg => by rw [qualifyData]; exact (runs_qualifySpecIn _ _ _).mono dataPkg_one
  | .embed e => by
    rw [qualifyData]; exact Runs.bind ((runs_embedQualify _).mono dataPkg_one) fun _ => Runs.pure _
  | .method e => by
    rw [qualifyData]; exact Runs.bind ((runs_methodQualify _).mono dataPkg_mem) fun _ => Runs.pure _
  | .ptr v => by
    rw [qualifyData]
    exact Runs.bind ((runs_qualifyData h true v).mono
      (DataPkg.sub (by intro pk hpk; rw [TVal.packages]; exact hpk))) fun _ => Runs.pure _
  | .struct fs => by
    rw [qualifyData]
    exact Runs.bind ((runs_qualifyDataFields h addr false false fs).mono
      (DataPkg.sub (by intro pk hpk; rw [TVal.packages]; exact hpk))) fun _ => Runs.pure _
  | .array vs => by
    rw [qualifyData]
    exact Runs.bind ((runs_qualifyDataElems h addr addr false vs).mono
      (DataPkg.sub (by intro pk hpk; rw [TVal.packages]; exact hpk))) fun _ => Runs.pure _
  | .slice vs => by
    rw [qualifyData]
    exact Runs.bind ((runs_qualifyDataElems h true true false vs).mono
      (DataPkg.sub (by intro pk hpk; rw [TVal.packages]; exact hpk))) fun _ => Runs.pure _
  | .map es => by
    rw [qualifyData]
    exact Runs.bind ((runs_qualifyDataEntries h es).mono
      (DataPkg.sub (by intro pk hpk; rw [TVal.packages]; exact hpk)))
      fun _ => Runs.ite (Runs.pure _) (Runs.pure _)
  | .scalar _ => by rw [qualifyData] <;> first | exact Runs.pure _ | (intros; simp_all)
  | .imports => by rw [qualifyData] <;> first | exact Runs.pure _ | (intros; simp_all)
  | .typeName _ => by rw [qualifyData] <;> first | exact Runs.pure _ | (intros; simp_all)
  | .reflectType _ => by rw [qualifyData] <;> first | exact Runs.pure _ | (intros; simp_all)
  | .goType _ => by rw [qualifyData] <;> first | exact Runs.pure _ | (intros; simp_all)
  | .goObject _ => by rw [qualifyData] <;> first | exact Runs.pure _ | (intros; simp_all)
  | .goPackage _ => by rw [qualifyData] <;> first | exact Runs.pure _ | (intros; simp_all)
theorem runs_qualifyDataFields (h : Heap) (addr : Bool) : ∀ c hid fs,
    Runs (DataPkg h (packagesFields fs)) (qualifyDataFields h addr c hid fs)
  | _, _, [] => by rw [qualifyDataFields]; exact Runs.pure _
  | _, _, (_, v) :: fs => by
    rw [qualifyDataFields, packagesFields]
    exact Runs.ite Runs.panic (Runs.bind ((runs_qualifyData h addr v).mono (DataPkg.sub (by simp_all))) fun _ =>
      Runs.ite Runs.panic (Runs.bind ((runs_qualifyDataFields h addr _ _ fs).mono
        (DataPkg.sub (by simp_all))) fun _ => Runs.pure _))
theorem runs_qualifyDataElems (h : Heap) (addr s : Bool) : ∀ c vs,
    Runs (DataPkg h (packagesElems vs)) (qualifyDataElems h addr s c vs)
  | _, [] => by rw [qualifyDataElems]; exact Runs.pure _
  | _, v :: vs => by
    rw [qualifyDataElems, packagesElems]
    exact Runs.bind ((runs_qualifyData h addr v).mono (DataPkg.sub (by simp_all))) fun _ =>
      Runs.ite Runs.panic (Runs.bind ((runs_qualifyDataElems h addr s _ vs).mono
        (DataPkg.sub (by simp_all))) fun _ => Runs.pure _)
theorem runs_qualifyDataEntries (h : Heap) : ∀ es,
    Runs (DataPkg h (packagesEntries es)) (qualifyDataEntries h es)
  | [] => by rw [qualifyDataEntries]; exact Runs.pure _
  | (k, v) :: es => by
    rw [qualifyDataEntries, packagesEntries]
    exact Runs.bind ((runs_qualifyData h false k).mono (DataPkg.sub (by simp_all))) fun _ =>
      Runs.bind ((runs_qualifyData h false v).mono (DataPkg.sub (by simp_all))) fun _ =>
      Runs.ite Runs.panic (Runs.bind ((runs_qualifyDataEntries h es).mono (DataPkg.sub (by simp_all)))
        fun _ => Runs.pure _)
end

theorem runs_qualifyTemplateData (h : Heap) (d : TVal) :
    Runs (DataPkg h (TVal.iface acceptsAll d).packages) (qualifyTemplateData h d) := by
  refine Runs.bind (runs_qualifyData h true _) fun r => ?_
  obtain ⟨r, c⟩ := r
  cases r <;> exact Runs.pure _

theorem FilePkg.mentioned {h : Heap} {pk : Package} (hp : FilePkg h pk) : Mentioned h pk := by
  obtain ⟨p, f, h1, rfl⟩ := hp
  exact .file h1

theorem FilePkg.registers {h : Heap} {pk : Package} (hp : FilePkg h pk) : Registrable h pk := by
  obtain ⟨p, f, h1, rfl⟩ := hp
  exact ⟨.file h1, fun _ => .file h1⟩

theorem Named.registers {h : Heap} {l : List Package} {pk : Package} (hp : Named l pk)
    (hm : pk ∈ l → Mentioned h pk) : Registrable h pk :=
  ⟨hm hp.1, fun he => absurd he hp.2⟩

theorem registers_templ {h : Heap} {p : Ptr} {t : Templ} (ht : h.templs p = some t) {pk : Package}
    (hpk : DataPkg h (TVal.iface acceptsAll t.data).packages pk) : Registrable h pk :=
  hpk.elim (fun hm => ⟨.templ ht hm, fun _ => .templ ht hm⟩) FilePkg.registers

theorem registers_arg {h : Heap} {p : Ptr} {l : List Arg} (hl : h.args p = some l) {a : Arg}
    (ha : a ∈ l) {pk : Package} (hpk : ArgNamed h a pk) : Registrable h pk := by
  rcases hpk with hpk | ⟨h1, h2⟩ | hpk
  · exact hpk.registers (.arg hl ha)
  · exact ⟨.arg hl ha h2, fun _ => .arg hl ha h1⟩
  · exact hpk.registers

/-! ### The pass makes steps only -/

theorem steps_codeElem (e : CodeElem) : QM.Steps e.qualify := by
  cases e with
  | line f p =>
    intro h i
    simp only [CodeElem.qualify]
    split
    · exact .refl _ _
    · rename_i l hl
      rcases hq : qualifyArgList h l i with ⟨o, l', i'⟩
      exact QStep.steps (.args hl hq)
  | templ p =>
    refine QM.Steps.bind_read fun h i t ht => ?_
    refine QM.Steps.lift_at ((runs_qualifyTemplateData _ _).mono fun pk hpk =>
      registers_templ ht hpk) fun d i' hd => ?_
    exact QStep.steps (.templ ht hd)

theorem steps_code (cb : CodeBlock) : QM.Steps (qualifyCode cb) :=
  QM.Steps.forEach steps_codeElem cb

theorem embedQualify_eq {e : InterfaceEmbed} {i j : Imports} {r : InterfaceEmbed × Bool}
    (h : e.qualify i = (.ok r, j)) :
    ∃ s, ensureImported e.type i = (.ok s, j) ∧ r.1 = { e with type := s } := by
  simp only [InterfaceEmbed.qualify, IM.bind_apply] at h
  rcases hs : ensureImported e.type i with ⟨_ | _ | _, j'⟩ <;> rw [hs] at h
  · rename_i s
    simp only [Prod.mk.injEq, Pure.pure, IM.ret, Outcome.ok.injEq] at h
    exact ⟨s, by rw [h.2], by rw [← h.1]⟩
  · simp at h
  · simp at h

theorem methodQualify_eq {m : InterfaceMethod} {i j : Imports} {r : InterfaceMethod × Bool}
    (h : m.qualify i = (.ok r, j)) :
    ∃ s, ensureAllTypesImported m.signature i = (.ok s, j) ∧ r.1 = { m with signature := s } := by
  simp only [InterfaceMethod.qualify, IM.bind_apply] at h
  rcases hs : qualifySignature true m.signature i with ⟨_ | _ | _, j'⟩ <;> rw [hs] at h
  · rename_i s
    simp only [Prod.mk.injEq, Pure.pure, IM.ret, Outcome.ok.injEq] at h
    refine ⟨s.1, ?_, by rw [← h.1]⟩
    rw [ensureAllTypesImported, IM.bind_ok hs, ← h.2]; rfl
  · simp at h
  · simp at h

theorem steps_ifaceElem (e : IfaceElem) : QM.Steps e.qualify := by
  cases e with
  | embed p =>
    refine QM.Steps.bind_read fun h i e he => ?_
    refine QM.Steps.lift_at ((named_embedQualify e).mono fun pk hpk => hpk.registers fun hm => by
      rw [List.mem_singleton.1 hm]; exact .embed he) fun r i' hr => ?_
    obtain ⟨s, h1, h2⟩ := embedQualify_eq hr
    simp only [QM.modify, h2]
    exact QStep.steps (.embed he h1)
  | method p =>
    refine QM.Steps.bind_read fun h i m hm => ?_
    refine QM.Steps.lift_at ((named_methodQualify m).mono fun pk hpk =>
      hpk.registers (.method hm)) fun r i' hr => ?_
    obtain ⟨s, h1, h2⟩ := methodQualify_eq hr
    simp only [QM.modify, h2]
    exact QStep.steps (.method hm h1)

theorem steps_field {sub : Ptr → QM Unit} (hsub : ∀ p, QM.Steps (sub p)) (p : Ptr) :
    QM.Steps (qualifyField sub p) := by
  refine QM.Steps.bind_read fun h i f hf => ?_
  cases ht : f.type with
  | nil => exact .refl _ _
  | name t =>
    refine QM.Steps.lift_at ((named_ensureTypeImported _).mono fun pk hpk =>
      hpk.registers (.field hf ht)) fun t' i' he => ?_
    exact QStep.steps (.field hf ht he)
  | spec q => exact hsub _ _ _

theorem steps_spec : ∀ fuel p, QM.Steps (qualifySpec fuel p)
  | 0, _ => QM.Steps.hang
  | fuel + 1, p => by
    refine QM.Steps.bind_read fun h i ts hts => ?_
    refine QM.Steps.lift_modify ((named_ensureTypeImported _).mono fun pk hpk => hpk.registers (.type hts))
      (fun u i' he => .type hts he) fun u i' => ?_
    exact QM.Steps.bind (QM.Steps.forEach (steps_field (steps_spec fuel)) _)
      (fun _ => QM.Steps.forEach steps_ifaceElem _) _ _

/-- The tables that `TypeSpec.qualify` writes to are those of type specs, fields, embeds and
methods. -/
structure SpecOnly (h h' : Heap) : Prop where
  files : h'.files = h.files
  values : h'.values = h.values
  valueDecls : h'.valueDecls = h.valueDecls
  typeDecls : h'.typeDecls = h.typeDecls
  funcs : h'.funcs = h.funcs
  blocks : h'.blocks = h.blocks
  args : h'.args = h.args
  templs : h'.templs = h.templs

theorem SpecOnly.refl (h : Heap) : SpecOnly h h := ⟨rfl, rfl, rfl, rfl, rfl, rfl, rfl, rfl⟩

theorem SpecOnly.trans {h h' h'' : Heap} (a : SpecOnly h h') (b : SpecOnly h' h'') : SpecOnly h h'' :=
  ⟨b.1.trans a.1, b.2.trans a.2, b.3.trans a.3, b.4.trans a.4, b.5.trans a.5, b.6.trans a.6,
    b.7.trans a.7, b.8.trans a.8⟩

/-- `x` keeps all other tables. -/
def QM.SpecOnly {α} (x : QM α) : Prop := ∀ h i, Gopoet.SpecOnly h (x h i).2.1

theorem QM.SpecOnly.bind {α β} {x : QM α} {f : α → QM β} (hx : QM.SpecOnly x)
    (hf : ∀ a, QM.SpecOnly (f a)) : QM.SpecOnly (QM.bind x f) := by
  intro h i
  have h1 := hx h i
  unfold QM.bind
  rcases hxe : x h i with ⟨_ | _ | _, h', i'⟩ <;> rw [hxe] at h1
  · exact h1.trans (hf _ _ _)
  · exact h1
  · exact h1

theorem QM.SpecOnly.forEach {α} {f : α → QM Unit} (hf : ∀ a, QM.SpecOnly (f a)) :
    ∀ l, QM.SpecOnly (QM.forEach f l)
  | [] => fun _ _ => Gopoet.SpecOnly.refl _
  | a :: l => QM.SpecOnly.bind (hf a) fun _ => QM.SpecOnly.forEach hf l

theorem specOnly_lift {α} (x : Heap → IM α) : QM.SpecOnly (QM.lift x) := fun _ _ => SpecOnly.refl _
theorem specOnly_read {α} (m : Heap → Ptr → Option α) (p : Ptr) : QM.SpecOnly (QM.read m p) :=
  fun _ _ => SpecOnly.refl _

theorem specOnly_ifaceElem (e : IfaceElem) : QM.SpecOnly e.qualify := by
  cases e <;>
  exact QM.SpecOnly.bind (specOnly_read _ _) fun _ => QM.SpecOnly.bind (specOnly_lift _) fun _ =>
    fun _ _ => ⟨rfl, rfl, rfl, rfl, rfl, rfl, rfl, rfl⟩

theorem specOnly_spec : ∀ fuel p, QM.SpecOnly (qualifySpec fuel p)
  | 0, _ => fun _ _ => SpecOnly.refl _
  | fuel + 1, p => by
    refine QM.SpecOnly.bind (specOnly_read _ _) fun ts => QM.SpecOnly.bind (specOnly_lift _) fun u =>
      QM.SpecOnly.bind (fun _ _ => ⟨rfl, rfl, rfl, rfl, rfl, rfl, rfl, rfl⟩) fun _ =>
      QM.SpecOnly.bind (QM.SpecOnly.forEach (fun p => ?_) _) fun _ =>
      QM.SpecOnly.forEach specOnly_ifaceElem _
    refine QM.SpecOnly.bind (specOnly_read _ _) fun f => ?_
    split
    · exact fun _ _ => SpecOnly.refl _
    · exact QM.SpecOnly.bind (specOnly_lift _) fun _ =>
        fun _ _ => ⟨rfl, rfl, rfl, rfl, rfl, rfl, rfl, rfl⟩
    · exact specOnly_spec fuel _

theorem steps_value (fuel : Nat) (p : Ptr) : QM.Steps (qualifyValue fuel p) := by
  refine QM.Steps.bind_read fun h i c hc => ?_
  have hinit : QM.Steps (match c.init with
      | none => QM.ret ()
      | some b => QM.bind (QM.read (·.blocks) b) qualifyCode) := by
    cases c.init with
    | none => exact QM.Steps.ret _
    | some b => exact QM.Steps.bind (QM.Steps.read _ _) fun _ => steps_code _
  cases ht : c.type with
  | nil =>
    have hself : { c with type := TypeRef.nil } = c := by rw [← ht]
    simp only [qualifyTypeRef, QM.bind, QM.ret, QM.modify, hself, upd_eq_self hc]
    exact hinit h i
  | name t =>
    have := QM.Steps.lift_modify (x := fun _ => ensureTypeImported t) (h := h) (i := i)
      (g := fun t' h => { h with values := upd h.values p { c with type := .name t' } })
      ((named_ensureTypeImported t).mono fun pk hpk => hpk.registers (.value hc ht))
      (fun t' i' he => .value hc ht he) (fun t' i' => hinit _ _)
    simp only [qualifyTypeRef, QM.bind, QM.lift, QM.modify] at this ⊢
    rcases he : ensureTypeImported t i with ⟨_ | _ | _, i'⟩ <;> rw [he] at this <;> exact this
  | spec q =>
    have hself : { c with type := TypeRef.spec q } = c := by rw [← ht]
    have hs := steps_spec fuel q h i
    have hv := (specOnly_spec fuel q h i).values
    simp only [qualifyTypeRef, QM.bind, QM.ret, QM.modify]
    rcases he : qualifySpec fuel q h i with ⟨_ | _ | _, h', i'⟩ <;> rw [he] at hs hv
    · have hc' : h'.values p = some c := by rw [← hc]; exact congrFun hv p
      have heq : ({ h' with values := upd h'.values p { c with type := TypeRef.spec q } } : Heap)
          = h' := by rw [hself, upd_eq_self hc']
      refine hs.trans ?_
      have := hinit h' i'
      simp only
      rw [heq]
      exact this
    · exact hs
    · exact hs

theorem steps_func (p : Ptr) : QM.Steps (qualifyFunc p) := by
  refine QM.Steps.bind_read fun h i f hf => ?_
  exact QM.Steps.lift_modify ((named_ensureAllTypesImported _).mono fun pk hpk => hpk.registers (.func hf))
    (fun s i' he => .func hf he)
    fun s i' => steps_code _ _ _

theorem steps_fileElem (fuel : Nat) (e : FileElem) : QM.Steps (e.qualify fuel) := by
  cases e with
  | values p => exact QM.Steps.bind (QM.Steps.read _ _) fun _ => QM.Steps.forEach (steps_value fuel) _
  | types p => exact QM.Steps.bind (QM.Steps.read _ _) fun _ => QM.Steps.forEach (steps_spec fuel) _
  | func p => exact steps_func p

/-- The qualification of a list of file elements is a sequence of steps. -/
theorem steps_fileElems (fuel : Nat) (es : List FileElem) :
    QM.Steps (QM.forEach (FileElem.qualify fuel) es) :=
  QM.Steps.forEach (steps_fileElem fuel) es

theorem QSteps.files {h i h' i'} (a : QSteps h i h' i') : h'.files = h.files := by
  induction a with
  | refl => rfl
  | step _ s ih => cases s <;> exact ih

theorem Runs.evolves {α} {P : Package → Prop} {x : IM α} (hx : Runs P x) {i j : Imports}
    {o : Outcome α} (h : x i = (o, j)) : Evolves P i j := by
  have := hx i
  rwa [h] at this

/-- A step registers only packages that the heap lets it register. -/
theorem QStep.named {h i h' i'} (a : QStep h i h' i') : Evolves (Registrable h) i i' := by
  cases a with
  | imports h => exact h
  | type hp h => exact ((named_ensureTypeImported _).evolves h).mono fun _ hn => hn.registers (.type hp)
  | field hp ht h =>
    exact ((named_ensureTypeImported _).evolves h).mono fun _ hn => hn.registers (.field hp ht)
  | embed hp h =>
    exact ((named_ensureImported _).evolves h).mono fun _ hn => hn.registers fun hm => by
      rw [List.mem_singleton.1 hm]; exact .embed hp
  | method hp h =>
    exact ((named_ensureAllTypesImported _).evolves h).mono fun _ hn => hn.registers (.method hp)
  | value hp ht h =>
    exact ((named_ensureTypeImported _).evolves h).mono fun _ hn => hn.registers (.value hp ht)
  | func hp h =>
    exact ((named_ensureAllTypesImported _).evolves h).mono fun _ hn => hn.registers (.func hp)
  | @args q l _ _ _ hp hq =>
    have := named_qualifyArgList h l i
    rw [hq] at this
    refine this.mono ?_
    rintro pk ⟨a, ha, hpk⟩
    exact registers_arg hp ha hpk
  | templ hp hq =>
    exact ((runs_qualifyTemplateData _ _).evolves hq).mono fun pk hpk => registers_templ hp hpk

/-- A step registers only packages that are mentioned on the heap. -/
theorem QStep.registers {h i h' i'} (a : QStep h i h' i') : Evolves (Mentioned h) i i' :=
  a.named.mono fun _ => And.left

theorem QStep.evolves {h i h' i'} (a : QStep h i h' i') : Evolves (fun _ => True) i i' :=
  a.registers.mono fun _ _ => trivial

theorem QSteps.evolves {h i h' i'} (a : QSteps h i h' i') : Evolves (fun _ => True) i i' := by
  induction a with
  | refl => exact .refl _
  | step _ s ih => exact ih.trans s.evolves

end Gopoet
