import Verif.Proof.TruthLemmas
import Verif.Proof.SpecVisits
import Verif.Proof.TwinLemmas
import Verif.Spec.Visited
/-! What a qualification pass imports: just the packages that it visits. -/

namespace Gopoet
open Imports

/-! ### Names and parents are the same before and after -/

/-- Names and parents of specs and packages of files are the same. -/
structure SameNames (h h' : Heap) : Prop where
  files : ∀ p, (h'.files p).map (·.package) = (h.files p).map (·.package)
  types : ∀ p, (h'.types p).map (fun t => (t.name, t.parent)) = (h.types p).map (fun t => (t.name, t.parent))
  methods : ∀ p, (h'.methods p).map (fun m => (m.name, m.parent)) = (h.methods p).map (fun m => (m.name, m.parent))
  funcs : ∀ p, (h'.funcs p).map (fun f => (f.name, f.receiver, f.parent)) =
    (h.funcs p).map (fun f => (f.name, f.receiver, f.parent))
  values : ∀ p, (h'.values p).map (fun c => (c.names, c.parent)) = (h.values p).map (fun c => (c.names, c.parent))
  valueDecls : h'.valueDecls = h.valueDecls
  typeDecls : h'.typeDecls = h.typeDecls
  blocks : h'.blocks = h.blocks

theorem SameNames.refl (h : Heap) : SameNames h h :=
  ⟨fun _ => rfl, fun _ => rfl, fun _ => rfl, fun _ => rfl, fun _ => rfl, rfl, rfl, rfl⟩

theorem SameNames.symm {h h' : Heap} (a : SameNames h h') : SameNames h' h :=
  ⟨fun p => (a.files p).symm, fun p => (a.types p).symm, fun p => (a.methods p).symm, fun p => (a.funcs p).symm,
    fun p => (a.values p).symm, a.valueDecls.symm, a.typeDecls.symm, a.blocks.symm⟩

theorem map_eq_some' {α β} {o o' : Option α} {g : α → β} (h : o'.map g = o.map g) {x} (hx : o = some x) :
    ∃ x', o' = some x' ∧ g x' = g x := by
  subst hx
  cases o' with
  | none => simp at h
  | some x' => exact ⟨x', rfl, by simpa using h⟩

theorem SameNames.staysAll {h h' : Heap} (a : SameNames h h') : StaysAll h h' := by
  refine ⟨⟨fun p f hf => map_eq_some' (a.files p) hf, fun p t ht => ?_, fun p t ht => ?_, fun p t ht => ?_,
    a.valueDecls, a.typeDecls, a.blocks⟩, fun p c hc => ?_⟩
  · obtain ⟨x, h1, h2⟩ := map_eq_some' (a.types p) ht
    exact ⟨x, h1, by simpa using h2⟩
  · obtain ⟨x, h1, h2⟩ := map_eq_some' (a.methods p) ht
    exact ⟨x, h1, by simpa using h2⟩
  · obtain ⟨x, h1, h2⟩ := map_eq_some' (a.funcs p) ht
    exact ⟨x, h1, by simpa using h2⟩
  · obtain ⟨x, h1, h2⟩ := map_eq_some' (a.values p) hc
    exact ⟨x, h1, by simpa using h2⟩

theorem deref_map {α β} {m m' : Ptr → Option α} {g : α → β} {p : Ptr} (h : (m' p).map g = (m p).map g) :
    ((deref m' p).bind fun x => .ok (g x)) = (deref m p).bind fun x => .ok (g x) := by
  unfold deref
  cases h1 : m p <;> cases h2 : m' p <;> simp_all [Outcome.bind]

theorem SameNames.package {h h' : Heap} (a : SameNames h h') (r : SpecRef) : r.package h' = r.package h := by
  have hp : r.parent h' = r.parent h := by
    cases r with
    | value p =>
      have := congrArg (Option.map Prod.snd) (a.values p)
      simp only [Option.map_map] at this
      exact deref_map this
    | type p =>
      have := congrArg (Option.map Prod.snd) (a.types p)
      simp only [Option.map_map] at this
      exact deref_map this
    | func p =>
      have := congrArg (Option.map (fun x => x.2.2)) (a.funcs p)
      simp only [Option.map_map] at this
      exact deref_map this
  unfold SpecRef.package
  rw [hp]
  split
  · exact a.files _
  · rfl

theorem upd_map {α β} {m : Ptr → Option α} {g : α → β} {p : Ptr} {x y : α} (hm : m p = some x) (h : g y = g x) (q : Ptr) :
    (upd m p y q).map g = (m q).map g := by
  by_cases hq : q = p
  · subst hq; simp [hm, h]
  · rw [upd_ne _ _ hq]

theorem QStep.sameNames {h i h' i'} (a : QStep h i h' i') : SameNames h h' := by
  have r := SameNames.refl h
  cases a with
  | type hp hu => exact ⟨r.files, upd_map hp rfl, r.methods, r.funcs, r.values, rfl, rfl, rfl⟩
  | method hp hu => exact ⟨r.files, r.types, upd_map hp rfl, r.funcs, r.values, rfl, rfl, rfl⟩
  | func hp hu => exact ⟨r.files, r.types, r.methods, upd_map hp rfl, r.values, rfl, rfl, rfl⟩
  | value hp hu => exact ⟨r.files, r.types, r.methods, r.funcs, upd_map hp rfl, rfl, rfl, rfl⟩
  | _ => exact ⟨r.files, r.types, r.methods, r.funcs, r.values, rfl, rfl, rfl⟩

mutual
theorem mentions_congr {h h' : Heap} (hp : ∀ r : SpecRef, r.package h' = r.package h) :
    ∀ v : TVal, v.mentions h' = v.mentions h
  | .iface _ v => by
    cases v <;> simp only [TVal.mentions] <;>
      first | rfl | exact hp _ ▸ rfl | skip
    case iface acc v => have := mentions_congr hp (.iface acc v); simpa only [TVal.mentions] using this
    case ptr v => exact mentions_congr hp v
    case struct v => exact mentionsFields_congr hp v
    case array v => exact mentionsElems_congr hp v
    case slice v => exact mentionsElems_congr hp v
    case map v => exact mentionsEntries_congr hp v
  | .spec r => by simp only [TVal.mentions, hp]
  | .ptr v => by simp only [TVal.mentions]; exact mentions_congr hp v
  | .struct v => by simp only [TVal.mentions]; exact mentionsFields_congr hp v
  | .array v => by simp only [TVal.mentions]; exact mentionsElems_congr hp v
  | .slice v => by simp only [TVal.mentions]; exact mentionsElems_congr hp v
  | .map v => by simp only [TVal.mentions]; exact mentionsEntries_congr hp v
  | .package _ | .symbol _ | .mref _ | .signature _ | .specCopy _ _ | .embed _ | .method _ | .scalar _ | .imports
  | .typeName _ | .reflectType _ | .goType _ | .goObject _ | .goPackage _ => by simp only [TVal.mentions]
theorem mentionsFields_congr {h h' : Heap} (hp : ∀ r : SpecRef, r.package h' = r.package h) :
    ∀ fs, mentionsFields h' fs = mentionsFields h fs
  | [] => rfl
  | (_, v) :: fs => by rw [mentionsFields, mentionsFields, mentions_congr hp v, mentionsFields_congr hp fs]
theorem mentionsElems_congr {h h' : Heap} (hp : ∀ r : SpecRef, r.package h' = r.package h) :
    ∀ vs, mentionsElems h' vs = mentionsElems h vs
  | [] => rfl
  | v :: vs => by rw [mentionsElems, mentionsElems, mentions_congr hp v, mentionsElems_congr hp vs]
theorem mentionsEntries_congr {h h' : Heap} (hp : ∀ r : SpecRef, r.package h' = r.package h) :
    ∀ es, mentionsEntries h' es = mentionsEntries h es
  | [] => rfl
  | (k, v) :: es => by
    rw [mentionsEntries, mentionsEntries, mentions_congr hp k, mentions_congr hp v, mentionsEntries_congr hp es]
end

/-! ### What is reached stays reachable, or it is imported -/

/-- The package is imported, or needs no import, or its path is empty. -/
def Kn (i : Imports) (pk : Package) : Prop := pk.importPath = [] ∨ PkgKnown i pk

theorem Ext.kn {i j : Imports} (h : Ext i j) {pk : Package} (hk : Kn i pk) : Kn j pk := hk.imp_right h.known

/-- What is reached through the type `t` is reached through `t'`, or among `K`. -/
structure RefMoves (K : Package → Prop) (t t' : TypeRef) : Prop where
  name : ∀ n, t = .name n → ∀ pk ∈ n.symbols.map (·.package), K pk ∨ ∃ n', t' = .name n' ∧ pk ∈ n'.symbols.map (·.package)
  spec : ∀ r, t = .spec r → t' = .spec r

theorem RefMoves.refl {K : Package → Prop} (t : TypeRef) : RefMoves K t t :=
  ⟨fun n hn _ hp => .inr ⟨n, hn, hp⟩, fun _ h => h⟩

/-- The symbols of `l` are in packages of `l'` or `K`. -/
def SymsMove (K : Package → Prop) (l l' : List Symbol) : Prop :=
  ∀ pk, SymPkgs l pk → K pk ∨ SymPkgs l' pk

/-- The same for specs of types. -/
def TypeMoves (K : Package → Prop) (ts ts' : TypeSpec) : Prop :=
  ts'.structBody = ts.structBody ∧ ts'.interfaceBody = ts.interfaceBody ∧
    SymsMove K ts.underlying.symbols ts'.underlying.symbols

/-- The same for lists of arguments. -/
def ArgsMove (K : Package → Prop) (h : Heap) (l l' : List Arg) : Prop :=
  ∀ a ∈ l, ∀ pk, WrittenArg h a pk → K pk ∨ ∃ a' ∈ l', WrittenArg h a' pk

/-- The same for template data. -/
def DataMoves (K : Package → Prop) (h : Heap) (t t' : Templ) : Prop :=
  ∀ pk ∈ (TVal.iface acceptsAll t.data).mentions h, K pk ∨ pk ∈ (TVal.iface acceptsAll t'.data).mentions h

/-- What is reached in `h` is reached in `h'`, or among `K`. -/
structure Moves (K : Package → Prop) (h h' : Heap) : Prop where
  names : SameNames h h'
  types : ∀ {p ts}, h.types p = some ts → ∃ ts', h'.types p = some ts' ∧ TypeMoves K ts ts'
  fields : ∀ {p f}, h.fields p = some f → ∃ f', h'.fields p = some f' ∧ RefMoves K f.type f'.type
  values : ∀ {p c}, h.values p = some c → ∃ c', h'.values p = some c' ∧ (c'.init = c.init ∧ RefMoves K c.type c'.type)
  embeds : ∀ {p e}, h.embeds p = some e → ∃ e', h'.embeds p = some e' ∧
    (K e.type.package ∨ e'.type.package = e.type.package)
  methods : ∀ {p m}, h.methods p = some m → ∃ m', h'.methods p = some m' ∧
    SymsMove K m.signature.symbols m'.signature.symbols
  funcs : ∀ {p f}, h.funcs p = some f → ∃ f', h'.funcs p = some f' ∧ (f'.code = f.code ∧
    SymsMove K f.signature.symbols f'.signature.symbols)
  args : ∀ {p l}, h.args p = some l → ∃ l', h'.args p = some l' ∧ ArgsMove K h l l'
  templs : ∀ {p t}, h.templs p = some t → ∃ t', h'.templs p = some t' ∧ DataMoves K h t t'

namespace Moves
variable {K : Package → Prop} {h h' : Heap}

theorem codeElem (c : Moves K h h') {x : CodeElem} {pk : Package} (hw : VisitedCodeElem h x pk) :
    K pk ∨ VisitedCodeElem h' x pk := by
  cases hw with
  | line h1 h2 h3 =>
    obtain ⟨l', h4, h5⟩ := c.args h1
    exact (h5 _ h2 _ h3).imp_right fun ⟨a, h6, h7⟩ => .line h4 h6 (c.names.staysAll.writtenArg h7)
  | templ h1 h2 =>
    obtain ⟨t', h3, h4⟩ := c.templs h1
    exact (h4 _ h2).imp_right fun h5 => .templ h3 (by rwa [mentions_congr c.names.package])

theorem ifaceElem (c : Moves K h h') {x : IfaceElem} {pk : Package} (hw : WrittenIfaceElem h x pk) :
    K pk ∨ WrittenIfaceElem h' x pk := by
  cases hw with
  | embed h1 =>
    obtain ⟨e', h2, h3⟩ := c.embeds h1
    rcases h3 with h3 | h3
    · exact .inl h3
    · exact .inr (h3 ▸ .embed h2)
  | method h1 h2 =>
    obtain ⟨m', h3, h4⟩ := c.methods h1
    exact (h4 _ h2).imp_right fun h5 => .method h3 h5

theorem body (c : Moves K h h') {p : Ptr} {pk : Package} (hw : VisitedBody h p pk) :
    K pk ∨ VisitedBody h' p pk := by
  induction hw with
  | underlying h1 h2 =>
    obtain ⟨ts', g1, -, -, g4⟩ := c.types h1
    exact (g4 _ h2).imp_right fun h => .underlying g1 h
  | field h1 h2 h3 h4 h5 =>
    obtain ⟨ts', g1, g2, -, -⟩ := c.types h1
    obtain ⟨f', g3, g4⟩ := c.fields h3
    exact (g4.name _ h4 _ h5).imp_right fun ⟨n, g5, g6⟩ => .field g1 (g2 ▸ h2) g3 g5 g6
  | spec h1 h2 h3 h4 _ ih =>
    obtain ⟨ts', g1, g2, -, -⟩ := c.types h1
    obtain ⟨f', g3, g4⟩ := c.fields h3
    exact ih.imp_right fun ih => .spec g1 (g2 ▸ h2) g3 (g4.spec _ h4) ih
  | iface h1 h2 h3 =>
    obtain ⟨ts', g1, -, g2, -⟩ := c.types h1
    exact (c.ifaceElem h3).imp_right fun h => .iface g1 (g2 ▸ h2) h

end Moves

theorem qualifyArgList_backs {h : Heap} : ∀ {l l' : List Arg} {i j : Imports} {o},
    qualifyArgList h l i = (o, l', j) →
    ∀ a ∈ l', a ∈ l ∨ ∀ pk, WrittenArg h a pk → PkgKnown j pk
  | [], l', i, j, o, hx => by
    simp only [qualifyArgList, Prod.mk.injEq] at hx
    obtain ⟨-, rfl, -⟩ := hx
    simp
  | a :: l, l', i, j, o, hx => by
    rw [qualifyArgList] at hx
    rcases ha : qualifyArg h a i with ⟨a' | _ | _, i1⟩ <;> rw [ha] at hx
    · rcases hl : qualifyArgList h l i1 with ⟨o, l1, i2⟩
      simp only [hl, Prod.mk.injEq] at hx
      obtain ⟨rfl, rfl, rfl⟩ := hx
      have ih := qualifyArgList_backs hl
      have hev := (evolves_qualifyArgList h l i1).1
      rw [hl] at hev
      intro b hb
      rcases List.mem_cons.1 hb with rfl | hb
      · exact .inr fun pk hpk => hev.ext.known ((qualifyArg_settled ha).written hpk).known
      · exact (ih b hb).imp (by simp +contextual) id
    · simp only [Prod.mk.injEq] at hx
      obtain ⟨rfl, rfl, rfl⟩ := hx
      exact fun b hb => .inl hb
    · simp only [Prod.mk.injEq] at hx
      obtain ⟨rfl, rfl, rfl⟩ := hx
      exact fun b hb => .inl hb

theorem packagesOf_sub {l : List Symbol} {pk : Package} (h : pk ∈ packagesOf l) : pk ∈ l.map (·.package) :=
  (List.mem_filter.1 h).1

theorem convertedMentions_sub {o : Outcome TypeName} {pk : Package} (h : pk ∈ convertedMentions o) :
    pk ∈ convertedRefs o := by
  cases o with
  | ok t => exact packagesOf_sub h
  | _ => simp [convertedMentions] at h

theorem objectMentions_sub {o : Outcome SymbolOrMethodRef} {pk : Package} (h : pk ∈ objectMentions o) :
    pk ∈ objectRefs o := by
  rcases o with (s | m) | _ | _
  · exact packagesOf_sub h
  · exact packagesOf_sub h
  · simp [objectMentions] at h
  · simp [objectMentions] at h

/-- What data mentions is in it as a package or is the package of a spec. -/
def MentionedBy (h : Heap) (l : List Package) (specs : List (SpecRef × Option GoString)) (pk : Package) : Prop :=
  pk ∈ l ∨ ∃ r, (r, none) ∈ specs ∧ r.package h = some pk

theorem MentionedBy.mono {h : Heap} {l l' specs specs' pk} (hm : MentionedBy h l specs pk) (h1 : ∀ x ∈ l, x ∈ l')
    (h2 : ∀ x ∈ specs, x ∈ specs') : MentionedBy h l' specs' pk :=
  hm.imp (h1 _) fun ⟨r, h3, h4⟩ => ⟨r, h2 _ h3, h4⟩

mutual
theorem mentions_sub (h : Heap) (pk : Package) : ∀ v : TVal, pk ∈ v.mentions h → MentionedBy h v.packages v.shownSpecs pk
  | .iface acc v, hm => by
    by_cases hv : v.isConv = true
    · cases v <;> simp [TVal.isConv] at hv <;> simp only [TVal.mentions] at hm <;> refine .inl ?_ <;>
        simp only [TVal.packages]
      · exact packagesOf_sub hm
      · exact convertedMentions_sub hm
      · exact convertedMentions_sub hm
      · exact objectMentions_sub hm
      · exact hm
    · have hv : v.isConv = false := by simpa using hv
      rw [mentions_iface h acc hv] at hm
      have := mentions_sub h pk v hm
      rw [TVal.shownSpecs]
      refine this.mono ?_ fun _ h => h
      cases v <;> simp [TVal.isConv] at hv <;> simp [TVal.packages]
  | .package p, hm => .inl (by simpa only [TVal.mentions, TVal.packages] using hm)
  | .symbol s, hm => .inl (packagesOf_sub (by simpa only [TVal.mentions] using hm))
  | .mref m, hm => .inl (packagesOf_sub (l := [m.type]) (by simpa only [TVal.mentions] using hm))
  | .signature s, hm => .inl (packagesOf_sub (by simpa only [TVal.mentions] using hm))
  | .spec r, hm => .inr ⟨r, by simp [TVal.shownSpecs], by simpa [TVal.mentions] using hm⟩
  | .specCopy r n, hm => .inl (by simpa only [TVal.mentions, TVal.packages] using hm)
  | .embed e, hm => .inl (packagesOf_sub (l := [e.type]) (by simpa only [TVal.mentions] using hm))
  | .method m, hm => .inl (packagesOf_sub (by simpa only [TVal.mentions] using hm))
  | .ptr v, hm => by
    rw [TVal.mentions] at hm; rw [TVal.packages, TVal.shownSpecs]; exact mentions_sub h pk v hm
  | .struct v, hm => by
    rw [TVal.mentions] at hm; rw [TVal.packages, TVal.shownSpecs]; exact mentionsFields_sub h pk v hm
  | .array v, hm => by
    rw [TVal.mentions] at hm; rw [TVal.packages, TVal.shownSpecs]; exact mentionsElems_sub h pk v hm
  | .slice v, hm => by
    rw [TVal.mentions] at hm; rw [TVal.packages, TVal.shownSpecs]; exact mentionsElems_sub h pk v hm
  | .map v, hm => by
    rw [TVal.mentions] at hm; rw [TVal.packages, TVal.shownSpecs]; exact mentionsEntries_sub h pk v hm
  | .scalar _, hm | .imports, hm | .typeName _, hm | .reflectType _, hm | .goType _, hm | .goObject _, hm
  | .goPackage _, hm => by simp [TVal.mentions] at hm
theorem mentionsFields_sub (h : Heap) (pk : Package) : ∀ fs, pk ∈ mentionsFields h fs →
    MentionedBy h (packagesFields fs) (shownSpecsFields fs) pk
  | [], hm => by simp [mentionsFields] at hm
  | (b, v) :: fs, hm => by
    rw [mentionsFields] at hm
    rw [packagesFields, shownSpecsFields]
    rcases List.mem_append.1 hm with hm | hm
    · exact (mentions_sub h pk v hm).mono (fun _ h => List.mem_append_left _ h) (fun _ h => List.mem_append_left _ h)
    · exact (mentionsFields_sub h pk fs hm).mono (fun _ h => List.mem_append_right _ h) (fun _ h => List.mem_append_right _ h)
theorem mentionsElems_sub (h : Heap) (pk : Package) : ∀ fs, pk ∈ mentionsElems h fs →
    MentionedBy h (packagesElems fs) (shownSpecsElems fs) pk
  | [], hm => by simp [mentionsElems] at hm
  | v :: fs, hm => by
    rw [mentionsElems] at hm
    rw [packagesElems, shownSpecsElems]
    rcases List.mem_append.1 hm with hm | hm
    · exact (mentions_sub h pk v hm).mono (fun _ h => List.mem_append_left _ h) (fun _ h => List.mem_append_left _ h)
    · exact (mentionsElems_sub h pk fs hm).mono (fun _ h => List.mem_append_right _ h) (fun _ h => List.mem_append_right _ h)
theorem mentionsEntries_sub (h : Heap) (pk : Package) : ∀ fs, pk ∈ mentionsEntries h fs →
    MentionedBy h (packagesEntries fs) (shownSpecsEntries fs) pk
  | [], hm => by simp [mentionsEntries] at hm
  | (k, v) :: fs, hm => by
    rw [mentionsEntries] at hm
    rw [packagesEntries, shownSpecsEntries]
    simp only [List.mem_append] at hm
    rcases hm with hm | hm | hm
    · exact (mentions_sub h pk k hm).mono (fun _ h => by simp [h]) (fun _ h => by simp [h])
    · exact (mentions_sub h pk v hm).mono (fun _ h => by simp [h]) (fun _ h => by simp [h])
    · exact (mentionsEntries_sub h pk fs hm).mono (fun _ h => by simp [h]) (fun _ h => by simp [h])
end

/-- Everything that qualified data mentions is imported. -/
theorem qualifyTemplateData_mentions {h : Heap} {v v' : TVal} {i j : Imports}
    (hx : qualifyTemplateData h v i = (.ok v', j)) {pk : Package}
    (hm : pk ∈ (TVal.iface acceptsAll v').mentions h) : Kn j pk := by
  obtain ⟨h1, h2⟩ := qualifyTemplateData_out (leaves_known h) hx
  rcases mentions_sub h pk _ hm with hm | ⟨r, h3, h4⟩
  · exact (h1 pk hm).elim .inr .inl
  · obtain ⟨-, o, h5, h6⟩ := h2 _ h3
    rw [SpecRef.package, h5] at h4
    cases o with
    | none => simp at h4
    | some p =>
      obtain ⟨f, h7, h8⟩ := h6 p rfl
      simp only [h7, Option.map_some, Option.some.injEq] at h4
      subst h4
      exact .inr (NamedIn.known (n := f.package.name) h8)

theorem upd_fwd {α} {m : Ptr → Option α} {R : α → α → Prop} (hr : ∀ a, R a a) {p x y} (hp : m p = some x) (hxy : R x y)
    {q a} (hq : m q = some a) : ∃ a', upd m p y q = some a' ∧ R a a' := by
  by_cases hqp : q = p
  · subst hqp
    rw [hp] at hq
    obtain rfl := Option.some.inj hq
    exact ⟨y, upd_same .., hxy⟩
  · exact ⟨a, (upd_ne _ _ hqp).trans hq, hr a⟩

theorem upd_bwd {α} {m : Ptr → Option α} {R : α → α → Prop} (hr : ∀ a, R a a) {p x y} (hp : m p = some x) (hxy : R y x)
    {q a} (hq : upd m p y q = some a) : ∃ a', m q = some a' ∧ R a a' := by
  by_cases hqp : q = p
  · subst hqp
    rw [upd_same] at hq
    obtain rfl := Option.some.inj hq
    exact ⟨x, hp, hxy⟩
  · exact ⟨a, (upd_ne _ _ hqp).symm.trans hq, hr a⟩

theorem SymsMove.refl {K : Package → Prop} (l : List Symbol) : SymsMove K l l := fun _ h => .inr h

theorem ArgsMove.refl {K : Package → Prop} {h : Heap} (l : List Arg) : ArgsMove K h l l :=
  fun a ha _ hw => .inr ⟨a, ha, hw⟩

theorem DataMoves.refl {K : Package → Prop} {h : Heap} (t : Templ) : DataMoves K h t t := fun _ h => .inr h

theorem Moves.refl {K : Package → Prop} (h : Heap) : Moves K h h where
  names := .refl h
  types hp := ⟨_, hp, rfl, rfl, .refl _⟩
  fields hp := ⟨_, hp, .refl _⟩
  values hp := ⟨_, hp, rfl, .refl _⟩
  embeds hp := ⟨_, hp, .inr rfl⟩
  methods hp := ⟨_, hp, .refl _⟩
  funcs hp := ⟨_, hp, rfl, .refl _⟩
  args hp := ⟨_, hp, fun a ha _ hw => .inr ⟨a, ha, hw⟩⟩
  templs hp := ⟨_, hp, fun _ h => .inr h⟩

/-- One step keeps what is reached or imports it. -/
theorem QStep.moves {h i h' i'} (a : QStep h i h' i') : Moves (PkgKnown i') h h' := by
  have s := a.sameNames
  have r : Moves (PkgKnown i') h h := .refl h
  cases a with
  | imports => exact r
  | type hp hu =>
    refine { r with names := s, types := ?_ }
    refine fun hq => upd_fwd (R := TypeMoves (PkgKnown i')) (fun _ => ⟨rfl, rfl, .refl _⟩) hp ?_ hq
    exact ⟨rfl, rfl, fun pk h => .inl ((registers_ensureTypeImported _ _ _ _ hu).2 pk h)⟩
  | field hp hn hu =>
    refine { r with names := s, fields := ?_ }
    exact fun hq => upd_fwd (R := fun f f' : FieldSpec => RefMoves (PkgKnown i') f.type f'.type) (fun _ => .refl _) hp
      ⟨fun n e pk h => .inl ((registers_ensureTypeImported _ _ _ _ hu).2 pk (by rw [hn] at e; cases e; exact h)),
          fun r e => by rw [hn] at e; cases e⟩ hq
  | value hp hn hu =>
    refine { r with names := s, values := ?_ }
    refine fun hq => upd_fwd (R := fun f f' : ValueSpec => f'.init = f.init ∧ RefMoves (PkgKnown i') f.type f'.type)
      (fun _ => ⟨rfl, .refl _⟩) hp ?_ hq
    exact ⟨rfl, fun n e pk h => .inl ((registers_ensureTypeImported _ _ _ _ hu).2 pk (by rw [hn] at e; cases e; exact h)),
          fun r e => by rw [hn] at e; cases e⟩
  | embed hp hu =>
    refine { r with names := s, embeds := ?_ }
    exact fun hq => upd_fwd (R := fun e e' : InterfaceEmbed => PkgKnown i' e.type.package ∨ e'.type.package = e.type.package)
        (fun _ => .inr rfl) hp (.inl ((registers_ensureImported _ _ _ _ hu).2 _ rfl)) hq
  | method hp hu =>
    refine { r with names := s, methods := ?_ }
    exact fun hq => upd_fwd (R := fun m m' : InterfaceMethod => SymsMove (PkgKnown i') m.signature.symbols m'.signature.symbols)
        (fun _ _ h => .inr h) hp (fun pk h => .inl ((registers_ensureAllTypesImported _ _ _ _ hu).2 pk h)) hq
  | func hp hu =>
    refine { r with names := s, funcs := ?_ }
    refine fun hq => upd_fwd (R := fun m m' : FuncSpec => m'.code = m.code ∧
        SymsMove (PkgKnown i') m.signature.symbols m'.signature.symbols)
        (fun _ => ⟨rfl, fun _ h => .inr h⟩) hp ?_ hq
    exact ⟨rfl, fun pk h => .inl ((registers_ensureAllTypesImported _ _ _ _ hu).2 pk h)⟩
  | args hp hu =>
    refine { r with names := s, args := ?_ }
    refine fun hq => upd_fwd (R := ArgsMove (PkgKnown i') h) (fun l a ha pk hw => .inr ⟨a, ha, hw⟩) hp ?_ hq
    intro a ha pk hw
    exact (qualifyArgList_carries hu a ha).elim (fun h1 => .inr ⟨a, h1, hw⟩) fun h1 => .inl (h1 pk (.inl hw))
  | templ hp hu =>
    refine { r with names := s, templs := ?_ }
    refine fun hq => upd_fwd (R := DataMoves (PkgKnown i') h) (fun l pk hw => .inr hw) hp ?_ hq
    intro pk hw
    obtain rfl := effect_qualifyTemplateData _ _ _ _ _ hu
    exact .inl (.inr ((registerAll_known i _ pk hw).imp_left fun h1 => h1.trans (after_registerAll i _).ext.own.symm))

/-- ... and what is reached afterwards was reached before, or it is imported. -/
theorem QStep.backs {h i h' i'} (a : QStep h i h' i') : Moves (Kn i') h' h := by
  have s := a.sameNames.symm
  have r : Moves (Kn i') h h := .refl h
  cases a with
  | imports => exact r
  | type hp hu =>
    refine { r with names := s, types := ?_, args := fun hq => ⟨_, hq, .refl _⟩, templs := fun hq => ⟨_, hq, .refl _⟩ }
    refine fun hq => upd_bwd (R := TypeMoves (Kn i')) (fun _ => ⟨rfl, rfl, .refl _⟩) hp ?_ hq
    exact ⟨rfl, rfl, fun pk h => .inl (.inr ((ensureTypeImported_settled hu).known h))⟩
  | field hp hn hu =>
    refine { r with names := s, fields := ?_, args := fun hq => ⟨_, hq, .refl _⟩, templs := fun hq => ⟨_, hq, .refl _⟩ }
    exact fun hq => upd_bwd (R := fun f f' : FieldSpec => RefMoves (Kn i') f.type f'.type) (fun _ => .refl _) hp
      ⟨fun n e pk h => .inl (.inr ((ensureTypeImported_settled hu).known (by cases e; exact h))),
          fun r e => by cases e⟩ hq
  | value hp hn hu =>
    refine { r with names := s, values := ?_, args := fun hq => ⟨_, hq, .refl _⟩, templs := fun hq => ⟨_, hq, .refl _⟩ }
    refine fun hq => upd_bwd (R := fun f f' : ValueSpec => f'.init = f.init ∧ RefMoves (Kn i') f.type f'.type)
      (fun _ => ⟨rfl, .refl _⟩) hp ?_ hq
    exact ⟨rfl, fun n e pk h => .inl (.inr ((ensureTypeImported_settled hu).known (by cases e; exact h))),
          fun r e => by cases e⟩
  | embed hp hu =>
    refine { r with names := s, embeds := ?_, args := fun hq => ⟨_, hq, .refl _⟩, templs := fun hq => ⟨_, hq, .refl _⟩ }
    exact fun hq => upd_bwd (R := fun e e' : InterfaceEmbed => Kn i' e.type.package ∨ e'.type.package = e.type.package)
        (fun _ => .inr rfl) hp (.inl (.inr (ensureImported_settled hu).known)) hq
  | method hp hu =>
    refine { r with names := s, methods := ?_, args := fun hq => ⟨_, hq, .refl _⟩, templs := fun hq => ⟨_, hq, .refl _⟩ }
    refine fun hq => upd_bwd (R := fun m m' : InterfaceMethod => SymsMove (Kn i') m.signature.symbols m'.signature.symbols)
        (fun _ _ h => .inr h) hp ?_ hq
    exact fun pk h => .inl (.inr ((ensureAllTypesImported_settled hu).known h))
  | func hp hu =>
    refine { r with names := s, funcs := ?_, args := fun hq => ⟨_, hq, .refl _⟩, templs := fun hq => ⟨_, hq, .refl _⟩ }
    refine fun hq => upd_bwd (R := fun m m' : FuncSpec => m'.code = m.code ∧
        SymsMove (Kn i') m.signature.symbols m'.signature.symbols)
        (fun _ => ⟨rfl, fun _ h => .inr h⟩) hp ?_ hq
    exact ⟨rfl, fun pk h => .inl (.inr ((ensureAllTypesImported_settled hu).known h))⟩
  | args hp hu =>
    have w : ∀ {a pk}, WrittenArg _ a pk → WrittenArg h a pk := s.staysAll.writtenArg
    refine { r with names := s, args := ?_, templs := ?_ }
    · intro q l hq
      obtain ⟨l', h1, h2⟩ := upd_bwd (R := fun l l' : List Arg => ∀ a ∈ l, ∀ pk, WrittenArg h a pk → Kn i' pk ∨ a ∈ l')
        (fun l a ha pk hw => .inr ha) hp
        (fun a ha pk hw => (qualifyArgList_backs hu a ha).elim .inr fun h1 => .inl (.inr (h1 pk hw))) hq
      exact ⟨l', h1, fun a ha pk hw => (h2 a ha pk (w hw)).imp_right fun h3 => ⟨a, h3, hw⟩⟩
    · exact fun hq => ⟨_, hq, fun _ h => .inr h⟩
  | templ hp hu =>
    refine { r with names := s, args := ?_, templs := ?_ }
    · exact fun hq => ⟨_, hq, fun a ha _ hw => .inr ⟨a, ha, hw⟩⟩
    · intro q t hq
      obtain ⟨t', h1, h2⟩ := upd_bwd (R := DataMoves (Kn i') h)
        (fun t pk hw => .inr hw) hp
        (fun pk hw => .inl (qualifyTemplateData_mentions hu hw)) hq
      refine ⟨t', h1, fun pk hw => ?_⟩
      rw [mentions_congr s.symm.package] at hw ⊢
      exact h2 pk hw

/-- What `V` says of a heap stays or is imported, and came from before or is imported. -/
structure FollowsPass (V : Heap → Package → Prop) : Prop where
  fwd : ∀ {h i h' i'}, Later h i h' i' → ∀ {pk}, V h pk → PkgKnown i' pk ∨ V h' pk
  bwd : ∀ {h i h' i'}, Later h i h' i' → ∀ {pk}, V h' pk → Kn i' pk ∨ V h pk

theorem Moves.file {K : Package → Prop} {h : Heap} {files : Ptr → Option GoFile}
    (hf : ∀ p, (files p).map (·.package) = (h.files p).map (·.package)) :
    Moves K h { h with files } ∧ Moves K { h with files } h := by
  have r : Moves K h h := .refl h
  have s : SameNames h { h with files } := { SameNames.refl h with files := hf }
  exact ⟨{ r with names := s }, { r with
    names := s.symm, args := fun hq => ⟨_, hq, .refl _⟩, templs := fun hq => ⟨_, hq, .refl _⟩ }⟩

theorem FollowsPass.of {V : Heap → Package → Prop}
    (hV : ∀ {K h h'}, Moves K h h' → ∀ {pk}, V h pk → K pk ∨ V h' pk) : FollowsPass V where
  fwd := by
    intro h i h' i' l pk hv
    refine l.induct (P := fun h i => PkgKnown i pk ∨ V h pk) ?_ ?_ (.inr hv)
    · rintro h i h' i' s (hp | hp)
      · exact .inl (s.ext.known hp)
      · exact hV s.moves hp
    · rintro h i files hf (hp | hp)
      · exact .inl hp
      · exact .inr ((hV (K := fun _ => False) (Moves.file hf).1 hp).resolve_left id)
  bwd := by
    intro h i h' i' l pk hv
    induction l with
    | refl => exact .inr hv
    | step l s ih =>
      rcases hV s.backs hv with h1 | h1
      · exact .inl h1
      · exact (ih h1).imp_left s.ext.kn
    | file l s ih => exact ih ((hV (K := fun _ => False) (Moves.file s).2 hv).resolve_left id)

theorem FollowsPass.ex {α : Type} {V : α → Heap → Package → Prop} (hV : ∀ a, FollowsPass (V a)) (l : List α) :
    FollowsPass fun h pk => ∃ a ∈ l, V a h pk where
  fwd l := fun ⟨a, ha, hv⟩ => ((hV a).fwd l hv).imp_right fun h => ⟨a, ha, h⟩
  bwd l := fun ⟨a, ha, hv⟩ => ((hV a).bwd l hv).imp_right fun h => ⟨a, ha, h⟩

theorem Evolves.drop {P Q : Package → Prop} {i j : Imports} (h : Evolves P i j) (hp : ∀ pk, P pk → Kn i pk ∨ Q pk) :
    Evolves (fun pk => Q pk ∨ pk.importPath = []) i j := by
  induction h with
  | refl => exact .refl _
  | step he hs ih =>
    refine .step ih ?_
    obtain ⟨pkg, q, h1, h2, h3, hr⟩ := hs
    refine ⟨pkg, q, ?_, h2, h3, hr⟩
    rcases hp pkg h1 with (h4 | h4) | h4
    · exact .inr h4
    · rcases he.ext.known h4 with h5 | h5 | h5
      · exact .inr (by rw [h5])
      · exact absurd h5 h2
      · exact absurd h3 h5
    · exact .inl h4

/-- From `i` to `j` just the packages of `V` are imported. -/
def AddsJust (V : Package → Prop) (i j : Imports) : Prop :=
  Evolves (fun pk => V pk ∨ pk.importPath = []) i j ∧ ∀ pk, V pk → PkgKnown j pk

theorem AddsJust.congr {V W : Package → Prop} {i j : Imports} (h : AddsJust V i j) (he : ∀ pk, W pk ↔ V pk) : AddsJust W i j :=
  ⟨h.1.mono fun pk => Or.imp_left (he pk).2, fun pk hw => h.2 pk ((he pk).1 hw)⟩

theorem AddsJust.none (i : Imports) : AddsJust (fun _ => False) i i := ⟨.refl _, fun _ h => h.elim⟩

/-- `x` imports just the packages of `V` when it returns. -/
structure Reaches (V : Heap → Package → Prop) (x : QM Unit) : Prop where
  steps : QM.Steps x
  adds : ∀ {h i h' i'}, x h i = (.ok (), h', i') → AddsJust (V h) i i'

/-- Something else comes first. -/
theorem Reaches.after {V : Heap → Package → Prop} {x : QM Unit} (hx : Reaches V x) (ht : FollowsPass V) {P : Package → Prop}
    {h i h1 i1 h2 i2} (l : Later h i h1 i1) (hp : AddsJust P i i1) (he : x h1 i1 = (.ok (), h2, i2)) :
    AddsJust (fun pk => P pk ∨ V h pk) i i2 := by
  obtain ⟨e1, k1⟩ := hp
  obtain ⟨e2, k2⟩ := hx.adds he
  refine ⟨(e1.mono fun pk => Or.imp_left .inl).trans ?_, ?_⟩
  · refine (e2.drop (Q := fun pk => P pk ∨ V h pk) ?_)
    rintro pk (h1 | h1)
    · exact (ht.bwd l h1).imp_right .inr
    · exact .inl (.inl h1)
  · rintro pk (hp | hp)
    · exact e2.ext.known (k1 pk hp)
    · exact (ht.fwd l hp).elim e2.ext.known (k2 pk)

theorem Reaches.forEach {α : Type} {f : α → QM Unit} {V : α → Heap → Package → Prop} (hf : ∀ a, Reaches (V a) (f a))
    (hV : ∀ a, FollowsPass (V a)) : ∀ l, Reaches (fun h pk => ∃ a ∈ l, V a h pk) (QM.forEach f l)
  | [] => ⟨QM.Steps.ret _, fun he => by
      simp only [QM.forEach, QM.ret, Prod.mk.injEq] at he
      obtain ⟨-, rfl, rfl⟩ := he
      exact (AddsJust.none _).congr (by simp)⟩
  | a :: l => ⟨QM.Steps.forEach (fun a => (hf a).steps) _, fun he => by
      rw [QM.forEach] at he
      obtain ⟨u, h1, i1, e1, e2⟩ := QM.bind_eq_ok he
      exact ((Reaches.forEach hf hV l).after (.ex hV l) ((hf a).steps.later e1) ((hf a).adds e1) e2).congr (by simp)⟩

/-! ### The pass -/

theorem addsJust_of {α} {P : Package → Prop} {x : IM α} (h1 : Runs P x) (h2 : Registers P x) {i a j} (he : x i = (.ok a, j)) :
    AddsJust P i j := by
  have := h1 i
  rw [he] at this
  exact ⟨this.mono fun _ => .inl, (h2 i a j he).2⟩

/-- What qualification of an argument registers is what it mentions. -/
theorem written_qualifyArg (h : Heap) (a : Arg) : Runs (WrittenArg h a) (qualifyArg h a) := by
  cases a <;> rw [qualifyArg]
  case package | packagePtr =>
    exact Runs.bind ((runs_registerPackage _).mono fun _ h => .ref (by constructor) (by simp [h, Reference.packages]))
      fun _ => Runs.ite (Runs.pure _) (Runs.pure _)
  case symbol | symbolPtr =>
    exact Runs.bind ((runs_ensureImported _).mono fun _ h => .ref (by constructor) (by simp [h, Reference.packages])) fun _ => Runs.pure _
  case mref | mrefPtr =>
    exact (runs_qualifySymOrRef _ _).mono fun _ h => .ref (by constructor) (by simp [h, Reference.packages, SymbolOrMethodRef.package])
  case sig => exact Runs.bind ((runs_ensureAllTypesImported _).mono fun _ h => .sig h) fun _ => Runs.pure _
  case sigPtr => exact Runs.bind ((runs_ensureAllTypesImported _).mono fun _ h => .sigPtr h) fun _ => Runs.pure _
  case typeName =>
    exact Runs.bind ((runs_ensureTypeImported _).mono fun _ h => .ref (.typeName _) h) fun _ => Runs.pure _
  case value p =>
    refine Runs.bind_lift fun s hs => (runs_qualifySymOrRef _ _).mono fun pk hpk => ?_
    obtain ⟨c, h1, h2⟩ := bind_eq_ok hs
    unfold ValueSpec.toSymbol ValueSpec.symbolAt at h2
    split at h2
    · simp at h2
    · rename_i hl
      split at h2
      · simp at h2
      · rename_i f hf
        split at h2
        · simp at h2
        · rename_i n hn
          obtain ⟨pk', h3, h4⟩ := bind_eq_ok h2
          obtain ⟨g, h5, h6⟩ := bind_eq_ok h3
          cases h4
          cases h6
          have hnames : c.names = [n] := by
            rcases hc : c.names with _ | ⟨a, _ | ⟨b, l⟩⟩ <;> simp_all
          exact .ref (.value (deref_eq_ok h1) hnames hf (deref_eq_ok h5)) (by simp [hpk, Reference.packages, SymbolOrMethodRef.package, GoFile.package])
  case typeSpec p =>
    refine Runs.bind_lift fun s hs => (runs_qualifySymOrRef _ _).mono fun pk hpk => ?_
    obtain ⟨c, h1, h2⟩ := bind_eq_ok hs
    unfold TypeSpec.toSymbol at h2
    split at h2
    · simp at h2
    · rename_i hl
      split at h2
      · simp at h2
      · rename_i f hf
        obtain ⟨pk', h3, h4⟩ := bind_eq_ok h2
        obtain ⟨g, h5, h6⟩ := bind_eq_ok h3
        cases h4
        cases h6
        exact .ref (.typeSpec (deref_eq_ok h1) hl hf (deref_eq_ok h5)) (by simp [hpk, Reference.packages, SymbolOrMethodRef.package, GoFile.package])
  case ifaceMethod p =>
    refine Runs.bind_lift fun s hs => (runs_qualifySymOrRef _ _).mono fun pk hpk => ?_
    obtain ⟨c, h1, h2⟩ := bind_eq_ok hs
    unfold InterfaceMethod.toMethodRef at h2
    split at h2
    · simp at h2
    · rename_i q hq
      obtain ⟨t, h3, h4⟩ := bind_eq_ok h2
      obtain ⟨sy, h5, h6⟩ := bind_eq_ok h4
      cases h6
      unfold TypeSpec.toSymbol at h5
      split at h5
      · simp at h5
      · rename_i hl
        split at h5
        · simp at h5
        · rename_i f hf
          obtain ⟨pk', h7, h8⟩ := bind_eq_ok h5
          obtain ⟨g, h9, h10⟩ := bind_eq_ok h7
          cases h8
          cases h10
          exact .ref (.ifaceMethod (deref_eq_ok h1) hq (deref_eq_ok h3) hl hf (deref_eq_ok h9))
            (by simp [hpk, Reference.packages, SymbolOrMethodRef.package, GoFile.package])
  case func p =>
    refine Runs.bind_lift fun s hs => (runs_qualifySymOrRef _ _).mono fun pk hpk => ?_
    obtain ⟨c, h1, h2⟩ := bind_eq_ok hs
    unfold FuncSpec.toSymbol at h2
    split at h2
    · simp at h2
    · rename_i f hf
      obtain ⟨pk', h3, h4⟩ := bind_eq_ok h2
      obtain ⟨g, h5, h6⟩ := bind_eq_ok h3
      cases h6
      cases hr : c.receiver with
      | none =>
        rw [hr] at h4
        cases h4
        exact .ref (.func (deref_eq_ok h1) hr hf (deref_eq_ok h5)) (by simp [hpk, Reference.packages, SymbolOrMethodRef.package, GoFile.package])
      | some r =>
        rw [hr] at h4
        cases h4
        exact .ref (.method (deref_eq_ok h1) hr hf (deref_eq_ok h5)) (by simp [hpk, Reference.packages, SymbolOrMethodRef.package, GoFile.package])
  case goObject =>
    refine Runs.bind_lift fun s hs => (runs_qualifySymOrRef _ _).mono fun pk hpk => ?_
    cases s with
    | symbol s => exact .ref (.goSymbol hs) (by simp [hpk, Reference.packages, SymbolOrMethodRef.package])
    | method s => exact .ref (.goMethod hs) (by simp [hpk, Reference.packages, SymbolOrMethodRef.package])
  case reflectType =>
    exact Runs.bind_lift fun t ht => Runs.bind ((runs_ensureTypeImported _).mono fun pk hpk => .ref (.reflectType ht) hpk)
      fun _ => Runs.pure _
  case goType =>
    exact Runs.bind_lift fun t ht => Runs.bind ((runs_ensureTypeImported _).mono fun pk hpk => .ref (.goType ht) hpk)
      fun _ => Runs.pure _
  case goPackage =>
    refine Runs.bind_lift fun t ht => Runs.bind ((runs_registerPackage _).mono fun pk hpk => .ref (.goPackage _ _) ?_)
      fun _ => Runs.pure _
    cases ht; rw [hpk]; simp [Reference.packages]
  all_goals first | exact Runs.pure _ | (intros; simp_all)

theorem adds_qualifyArgList {h : Heap} : ∀ {l l' : List Arg} {i j : Imports},
    qualifyArgList h l i = (.ok (), l', j) → AddsJust (fun pk => ∃ a ∈ l, WrittenArg h a pk) i j
  | [], l', i, j, hx => by
    simp only [qualifyArgList, Prod.mk.injEq] at hx
    obtain ⟨-, -, rfl⟩ := hx
    exact (AddsJust.none _).congr (by simp)
  | a :: l, l', i, j, hx => by
    rw [qualifyArgList] at hx
    rcases ha : qualifyArg h a i with ⟨a' | _ | _, i1⟩ <;> rw [ha] at hx
    · rcases hl : qualifyArgList h l i1 with ⟨o, l1, i2⟩
      simp only [hl, Prod.mk.injEq] at hx
      obtain ⟨rfl, rfl, rfl⟩ := hx
      obtain ⟨e1, k1⟩ := addsJust_of (written_qualifyArg h a) ((registers_qualifyArg h a).mono fun _ => .inl) ha
      obtain ⟨e2, k2⟩ := adds_qualifyArgList hl
      refine ⟨(e1.mono ?_).trans (e2.mono ?_), ?_⟩
      · exact fun pk => Or.imp_left fun h => ⟨a, by simp, h⟩
      · exact fun pk => Or.imp_left fun ⟨b, hb, h⟩ => ⟨b, by simp [hb], h⟩
      · rintro pk ⟨b, hb, hw⟩
        rcases List.mem_cons.1 hb with rfl | hb
        · exact e2.ext.known (k1 pk hw)
        · exact k2 pk ⟨b, hb, hw⟩
    · simp at hx
    · simp at hx

theorem follows_codeElem (x : CodeElem) : FollowsPass fun h pk => VisitedCodeElem h x pk := .of fun m => m.codeElem
theorem follows_ifaceElem (x : IfaceElem) : FollowsPass fun h pk => WrittenIfaceElem h x pk := .of fun m => m.ifaceElem
theorem follows_body (p : Ptr) : FollowsPass fun h pk => VisitedBody h p pk := .of fun m => m.body

theorem reaches_codeElem (e : CodeElem) : Reaches (fun h pk => VisitedCodeElem h e pk) e.qualify := by
  refine ⟨steps_codeElem e, fun {h i h' i'} hx => ?_⟩
  cases e with
  | line f p =>
    simp only [CodeElem.qualify] at hx
    split at hx
    · simp at hx
    · rename_i l hl
      rcases hq : qualifyArgList h l i with ⟨o, l', j⟩
      rw [hq] at hx
      simp only [Prod.mk.injEq] at hx
      obtain ⟨rfl, -, rfl⟩ := hx
      refine (adds_qualifyArgList hq).congr fun pk => ⟨fun h1 => ?_, fun ⟨a, ha, hw⟩ => .line hl ha hw⟩
      cases h1 with | line h2 h3 h4 =>
      rw [hl] at h2
      cases h2
      exact ⟨_, h3, h4⟩
  | templ p =>
    obtain ⟨t, e1, hx⟩ := QM.bind_read_eq_ok hx
    obtain ⟨d, i2, e2, hx⟩ := QM.bind_lift_eq_ok hx
    simp only [QM.modify, Prod.mk.injEq] at hx
    obtain ⟨-, -, rfl⟩ := hx
    obtain rfl := effect_qualifyTemplateData _ _ _ _ _ e2
    refine AddsJust.congr (V := (· ∈ (TVal.iface acceptsAll t.data).mentions h)) ⟨(evolves_after _ _).mono ?_, fun pk hw => ?_⟩ ?_
    · rintro pk ⟨c, hc, hp⟩
      obtain ⟨k, hk, rfl⟩ := List.mem_map.1 hc
      simp only [Call.packages, List.mem_singleton] at hp
      subst hp
      exact .inl hk
    · exact .inr ((registerAll_known i _ pk hw).imp_left fun h1 => h1.trans (after_registerAll i _).ext.own.symm)
    · refine fun pk => ⟨fun h1 => ?_, fun hw => .templ e1 hw⟩
      cases h1 with | templ h2 h3 =>
      rw [e1] at h2
      cases h2
      exact h3

theorem reaches_ifaceElem (e : IfaceElem) : Reaches (fun h pk => WrittenIfaceElem h e pk) e.qualify := by
  refine ⟨steps_ifaceElem e, fun {h i h' i'} hx => ?_⟩
  cases e with
  | embed p =>
    obtain ⟨t, e1, hx⟩ := QM.bind_read_eq_ok hx
    obtain ⟨d, i2, e2, hx⟩ := QM.bind_lift_eq_ok hx
    simp only [QM.modify, Prod.mk.injEq] at hx
    obtain ⟨-, -, rfl⟩ := hx
    refine (addsJust_of (runs_embedQualify t) (registers_embedQualify t) e2).congr
      fun pk => ⟨fun h1 => ?_, fun hw => hw ▸ .embed e1⟩
    cases h1 with | embed h2 =>
    rw [e1] at h2
    cases h2
    rfl
  | method p =>
    obtain ⟨t, e1, hx⟩ := QM.bind_read_eq_ok hx
    obtain ⟨d, i2, e2, hx⟩ := QM.bind_lift_eq_ok hx
    simp only [QM.modify, Prod.mk.injEq] at hx
    obtain ⟨-, -, rfl⟩ := hx
    refine (addsJust_of (runs_methodQualify t) (registers_methodQualify t) e2).congr
      fun pk => ⟨fun h1 => ?_, fun hw => .method e1 hw⟩
    cases h1 with | method h2 h3 =>
    rw [e1] at h2
    cases h2
    exact h3

/-- What is reached from the type of a constant, variable or field. -/
def VisitedRef (h : Heap) (t : TypeRef) (pk : Package) : Prop :=
  (∃ n, t = .name n ∧ pk ∈ n.symbols.map (·.package)) ∨ ∃ r, t = .spec r ∧ VisitedBody h r pk

/-- What is reached from a field. -/
def VisitedField (h : Heap) (p : Ptr) (pk : Package) : Prop := ∃ f, h.fields p = some f ∧ VisitedRef h f.type pk

theorem Moves.ref {K : Package → Prop} {h h' : Heap} (m : Moves K h h') {t t' : TypeRef} (ht : RefMoves K t t') {pk : Package}
    (hv : VisitedRef h t pk) : K pk ∨ VisitedRef h' t' pk := by
  rcases hv with ⟨n, h1, h2⟩ | ⟨r, h1, h2⟩
  · exact (ht.name n h1 pk h2).imp_right .inl
  · exact (m.body h2).imp_right fun h3 => .inr ⟨r, ht.spec r h1, h3⟩

theorem follows_field (p : Ptr) : FollowsPass fun h pk => VisitedField h p pk := by
  refine .of fun m pk ⟨f, h1, h2⟩ => ?_
  obtain ⟨f', h3, h4⟩ := m.fields h1
  exact (m.ref h4 h2).imp_right fun h5 => ⟨f', h3, h5⟩

theorem reaches_field {sub : Ptr → QM Unit} (hs : ∀ p, Reaches (fun h pk => VisitedBody h p pk) (sub p)) (p : Ptr) :
    Reaches (fun h pk => VisitedField h p pk) (qualifyField sub p) := by
  refine ⟨steps_field (fun p => (hs p).steps) p, fun {h i h' i'} hx => ?_⟩
  obtain ⟨f, e1, hx⟩ := QM.bind_read_eq_ok hx
  have one : ∀ pk, VisitedField h p pk ↔ VisitedRef h f.type pk := by
    refine fun pk => ⟨fun ⟨f', h1, h2⟩ => ?_, fun h1 => ⟨f, e1, h1⟩⟩
    rw [e1] at h1
    cases h1
    exact h2
  refine AddsJust.congr ?_ one
  cases ht : f.type with
  | nil =>
    simp only [ht, QM.ret, Prod.mk.injEq] at hx
    obtain ⟨-, -, rfl⟩ := hx
    exact (AddsJust.none _).congr (by simp [VisitedRef])
  | name t =>
    simp only [ht] at hx
    obtain ⟨d, i2, e2, hx⟩ := QM.bind_lift_eq_ok hx
    simp only [QM.modify, Prod.mk.injEq] at hx
    obtain ⟨-, -, rfl⟩ := hx
    exact (addsJust_of (runs_ensureTypeImported t) (registers_ensureTypeImported t) e2).congr (by simp [VisitedRef])
  | spec r =>
    simp only [ht] at hx
    exact ((hs r).adds hx).congr (by simp [VisitedRef])

theorem visitedBody_iff {h : Heap} {p : Ptr} {ts : TypeSpec} (ht : h.types p = some ts) (pk : Package) :
    VisitedBody h p pk ↔ (pk ∈ ts.underlying.symbols.map (·.package) ∨ ∃ q ∈ ts.structBody, VisitedField h q pk) ∨
      ∃ e ∈ ts.interfaceBody, WrittenIfaceElem h e pk := by
  constructor
  · intro hv
    cases hv with
    | underlying h1 h2 => rw [ht] at h1; cases h1; exact .inl (.inl h2)
    | field h1 h2 h3 h4 h5 => rw [ht] at h1; cases h1; exact .inl (.inr ⟨_, h2, _, h3, .inl ⟨_, h4, h5⟩⟩)
    | spec h1 h2 h3 h4 h5 => rw [ht] at h1; cases h1; exact .inl (.inr ⟨_, h2, _, h3, .inr ⟨_, h4, h5⟩⟩)
    | iface h1 h2 h3 => rw [ht] at h1; cases h1; exact .inr ⟨_, h2, h3⟩
  · rintro ((h1 | ⟨q, h1, f, h2, ⟨n, h3, h4⟩ | ⟨r, h3, h4⟩⟩) | ⟨e, h1, h2⟩)
    · exact .underlying ht h1
    · exact .field ht h1 h2 h3 h4
    · exact .spec ht h1 h2 h3 h4
    · exact .iface ht h1 h2

theorem reaches_spec : ∀ fuel p, Reaches (fun h pk => VisitedBody h p pk) (qualifySpec fuel p)
  | 0, _ => ⟨steps_spec _ _, fun hx => by simp [qualifySpec, QM.hang] at hx⟩
  | fuel + 1, p => by
    refine ⟨steps_spec _ _, fun {h i h' i'} hx => ?_⟩
    rw [qualifySpec] at hx
    obtain ⟨ts, e1, hx⟩ := QM.bind_read_eq_ok hx
    obtain ⟨u, i1, e2, hx⟩ := QM.bind_lift_eq_ok hx
    obtain ⟨_, h2, i2, e3, hx⟩ := QM.bind_eq_ok hx
    simp only [QM.modify, Prod.mk.injEq] at e3
    obtain ⟨-, rfl, rfl⟩ := e3
    obtain ⟨_, h3, i3, e4, hx⟩ := QM.bind_eq_ok hx
    have l1 : Later h i _ i1 := .step (.refl _ _) (.type e1 e2)
    have r1 := Reaches.forEach (reaches_field (reaches_spec fuel)) follows_field ts.structBody
    have a1 := r1.after (.ex follows_field _) l1 (addsJust_of (runs_ensureTypeImported _) (registers_ensureTypeImported _) e2) e4
    have r2 := Reaches.forEach reaches_ifaceElem follows_ifaceElem ts.interfaceBody
    exact (r2.after (.ex follows_ifaceElem _) (l1.trans (r1.steps.later e4)) a1 hx).congr (visitedBody_iff e1)

theorem reaches_code (cb : CodeBlock) : Reaches (fun h pk => ∃ e ∈ cb, VisitedCodeElem h e pk) (qualifyCode cb) :=
  Reaches.forEach reaches_codeElem follows_codeElem cb

/-- What is reached from the initializer of a constant or variable. -/
def VisitedInit (h : Heap) (o : Option Ptr) (pk : Package) : Prop :=
  ∃ b, o = some b ∧ ∃ cb, h.blocks b = some cb ∧ ∃ e ∈ cb, VisitedCodeElem h e pk

theorem follows_init (o : Option Ptr) : FollowsPass fun h pk => VisitedInit h o pk := by
  refine .of fun m pk ⟨b, h1, cb, h2, e, h3, h4⟩ => ?_
  exact (m.codeElem h4).imp_right fun h5 => ⟨b, h1, cb, m.names.blocks ▸ h2, e, h3, h5⟩

theorem reaches_init (o : Option Ptr) : Reaches (fun h pk => VisitedInit h o pk) (match o with
    | none => QM.ret ()
    | some b => QM.bind (QM.read (·.blocks) b) qualifyCode) := by
  cases o with
  | none =>
    refine ⟨QM.Steps.ret _, fun hx => ?_⟩
    simp only [QM.ret, Prod.mk.injEq] at hx
    obtain ⟨-, -, rfl⟩ := hx
    exact (AddsJust.none _).congr (by simp [VisitedInit])
  | some b =>
    refine ⟨QM.Steps.bind (QM.Steps.read _ _) fun _ => steps_code _, fun {h i h' i'} hx => ?_⟩
    obtain ⟨cb, e1, hx⟩ := QM.bind_read_eq_ok hx
    refine ((reaches_code cb).adds hx).congr fun pk => ⟨?_, fun h1 => ⟨b, rfl, cb, e1, h1⟩⟩
    rintro ⟨b', h1, cb', h2, h3⟩
    cases h1
    rw [show h.blocks b = some cb from e1] at h2
    cases h2
    exact h3

/-- What is reached from a constant or variable. -/
def VisitedValue (h : Heap) (p : Ptr) (pk : Package) : Prop :=
  ∃ c, h.values p = some c ∧ (VisitedRef h c.type pk ∨ VisitedInit h c.init pk)

theorem follows_value (p : Ptr) : FollowsPass fun h pk => VisitedValue h p pk := by
  refine .of fun m pk ⟨c, h1, h2⟩ => ?_
  obtain ⟨c', h3, h4, h5⟩ := m.values h1
  rcases h2 with h2 | ⟨b, g1, cb, g2, e, g3, g4⟩
  · exact (m.ref h5 h2).imp_right fun h6 => ⟨c', h3, .inl h6⟩
  · exact (m.codeElem g4).imp_right fun h6 => ⟨c', h3, .inr ⟨b, h4 ▸ g1, cb, m.names.blocks ▸ g2, e, g3, h6⟩⟩

theorem reaches_value (fuel : Nat) (p : Ptr) : Reaches (fun h pk => VisitedValue h p pk) (qualifyValue fuel p) := by
  refine ⟨steps_value fuel p, fun {h i h' i'} hx => ?_⟩
  rw [qualifyValue] at hx
  obtain ⟨c, e1, hx⟩ := QM.bind_read_eq_ok hx
  obtain ⟨t', h2, i2, e2, hx⟩ := QM.bind_eq_ok hx
  obtain ⟨_, h3, i3, e3, hx⟩ := QM.bind_eq_ok hx
  simp only [QM.modify, Prod.mk.injEq] at e3
  obtain ⟨-, e3, e3'⟩ := e3
  have hl : Later h i h3 i3 ∧ AddsJust (VisitedRef h c.type) i i3 := by
    cases ht : c.type with
    | nil =>
      simp only [ht, qualifyTypeRef, QM.ret, Prod.mk.injEq, Outcome.ok.injEq] at e2
      obtain ⟨rfl, rfl, rfl⟩ := e2
      rw [← ht, upd_eq_self e1] at e3
      subst e3 e3'
      exact ⟨.refl _ _, (AddsJust.none _).congr (by simp [VisitedRef])⟩
    | name t =>
      simp only [ht, qualifyTypeRef] at e2
      obtain ⟨d, i4, e4, e2⟩ := QM.bind_lift_eq_ok e2
      simp only [QM.ret, Prod.mk.injEq, Outcome.ok.injEq] at e2
      obtain ⟨rfl, rfl, rfl⟩ := e2
      subst e3 e3'
      exact ⟨.step (.refl _ _) (.value e1 ht e4),
        (addsJust_of (runs_ensureTypeImported t) (registers_ensureTypeImported t) e4).congr (by simp [VisitedRef])⟩
    | spec q =>
      simp only [ht, qualifyTypeRef] at e2
      obtain ⟨d, h4, i4, e4, e2⟩ := QM.bind_eq_ok e2
      simp only [QM.ret, Prod.mk.injEq, Outcome.ok.injEq] at e2
      obtain ⟨rfl, rfl, rfl⟩ := e2
      have hv := (specOnly_spec fuel q h i).values
      rw [e4] at hv
      have hc : h4.values p = some c := by rw [show h4.values = h.values from hv]; exact e1
      have hself : { c with type := TypeRef.spec q } = c := by rw [← ht]
      rw [hself, upd_eq_self hc] at e3
      subst e3 e3'
      exact ⟨(steps_spec fuel q).later e4, ((reaches_spec fuel q).adds e4).congr (by simp [VisitedRef])⟩
  refine ((reaches_init c.init).after (follows_init _) hl.1 hl.2 hx).congr fun pk => ⟨?_, fun h1 => ⟨c, e1, h1⟩⟩
  rintro ⟨c', h1, h2⟩
  rw [show h.values p = some c from e1] at h1
  cases h1
  exact h2

theorem visited_moves {K : Package → Prop} {h h' : Heap} (m : Moves K h h') {e : FileElem} {pk : Package}
    (hv : Visited h e pk) : K pk ∨ Visited h' e pk := by
  cases hv with
  | valueType h1 h2 h3 h4 h5 =>
    obtain ⟨c', g1, g2, g3⟩ := m.values h3
    exact (g3.name _ h4 _ h5).imp_right fun ⟨n, g5, g6⟩ => .valueType (m.names.valueDecls ▸ h1) h2 g1 g5 g6
  | valueSpec h1 h2 h3 h4 h5 =>
    obtain ⟨c', g1, g2, g3⟩ := m.values h3
    exact (m.body h5).imp_right fun g4 => .valueSpec (m.names.valueDecls ▸ h1) h2 g1 (g3.spec _ h4) g4
  | valueInit h1 h2 h3 h4 h5 h6 h7 =>
    obtain ⟨c', g1, g2, g3⟩ := m.values h3
    exact (m.codeElem h7).imp_right fun g4 => .valueInit (m.names.valueDecls ▸ h1) h2 g1 (g2.trans h4) (m.names.blocks ▸ h5) h6 g4
  | type h1 h2 h3 => exact (m.body h3).imp_right fun g1 => .type (m.names.typeDecls ▸ h1) h2 g1
  | funcSig h1 h2 =>
    obtain ⟨f', g1, g2, g3⟩ := m.funcs h1
    exact (g3 _ h2).imp_right fun g4 => .funcSig g1 g4
  | funcCode h1 h2 h3 =>
    obtain ⟨f', g1, g2, g3⟩ := m.funcs h1
    exact (m.codeElem h3).imp_right fun g4 => .funcCode g1 (g2 ▸ h2) g4

theorem follows_fileElem (e : FileElem) : FollowsPass fun h pk => Visited h e pk := .of fun m => visited_moves m

theorem reaches_fileElem (fuel : Nat) (e : FileElem) : Reaches (fun h pk => Visited h e pk) (e.qualify fuel) := by
  refine ⟨steps_fileElem fuel e, fun {h i h' i'} hx => ?_⟩
  cases e with
  | values p =>
    obtain ⟨d, e1, hx⟩ := QM.bind_read_eq_ok hx
    refine ((Reaches.forEach (reaches_value fuel) follows_value d.specs).adds hx).congr fun pk => ⟨fun hv => ?_, ?_⟩
    · cases hv with
      | valueType h1 h2 h3 h4 h5 =>
        rw [show h.valueDecls p = some d from e1] at h1
        cases h1
        exact ⟨_, h2, _, h3, .inl (.inl ⟨_, h4, h5⟩)⟩
      | valueSpec h1 h2 h3 h4 h5 =>
        rw [show h.valueDecls p = some d from e1] at h1
        cases h1
        exact ⟨_, h2, _, h3, .inl (.inr ⟨_, h4, h5⟩)⟩
      | valueInit h1 h2 h3 h4 h5 h6 h7 =>
        rw [show h.valueDecls p = some d from e1] at h1
        cases h1
        exact ⟨_, h2, _, h3, .inr ⟨_, h4, _, h5, _, h6, h7⟩⟩
    · rintro ⟨q, h2, c, h3, (⟨n, h4, h5⟩ | ⟨r, h4, h5⟩) | ⟨b, h4, cb, h5, x, h6, h7⟩⟩
      · exact .valueType e1 h2 h3 h4 h5
      · exact .valueSpec e1 h2 h3 h4 h5
      · exact .valueInit e1 h2 h3 h4 h5 h6 h7
  | types p =>
    obtain ⟨d, e1, hx⟩ := QM.bind_read_eq_ok hx
    refine ((Reaches.forEach (reaches_spec fuel) follows_body d.types).adds hx).congr fun pk => ⟨fun hv => ?_, ?_⟩
    · cases hv with | type h1 h2 h3 =>
      rw [show h.typeDecls p = some d from e1] at h1
      cases h1
      exact ⟨_, h2, h3⟩
    · rintro ⟨q, h2, h3⟩
      exact .type e1 h2 h3
  | func p =>
    rw [FileElem.qualify, qualifyFunc] at hx
    obtain ⟨f, e1, hx⟩ := QM.bind_read_eq_ok hx
    obtain ⟨s, i1, e2, hx⟩ := QM.bind_lift_eq_ok hx
    obtain ⟨_, h2, i2, e3, hx⟩ := QM.bind_eq_ok hx
    simp only [QM.modify, Prod.mk.injEq] at e3
    obtain ⟨-, rfl, rfl⟩ := e3
    refine ((reaches_code f.code).after (.ex follows_codeElem _) (.step (.refl _ _) (.func e1 e2))
      (addsJust_of (runs_ensureAllTypesImported _) (registers_ensureAllTypesImported _) e2) hx).congr fun pk => ⟨fun hv => ?_, ?_⟩
    · cases hv with
      | funcSig h1 h2 =>
        rw [show h.funcs p = some f from e1] at h1
        cases h1
        exact .inl h2
      | funcCode h1 h2 h3 =>
        rw [show h.funcs p = some f from e1] at h1
        cases h1
        exact .inr ⟨_, h2, h3⟩
    · rintro (h1 | ⟨x, h1, h2⟩)
      · exact .funcSig e1 h1
      · exact .funcCode e1 h1 h2

/-- A qualification of a file that succeeds imports just what is reached from its elements. -/
theorem qualifyFile_adds {fuel p h h' f f'} (hx : qualifyFile fuel p h = (.ok (), h')) (hf : h.files p = some f)
    (hf' : h'.files p = some f') : AddsJust (fun pk => ∃ e ∈ f.elements, Visited h e pk) f.imports f'.imports := by
  rw [qualifyFile] at hx
  simp only [hf] at hx
  rcases hq : QM.forEach (FileElem.qualify fuel) f.elements h f.imports with ⟨o, h1, i1⟩
  rw [hq] at hx
  simp only [Prod.mk.injEq] at hx
  obtain ⟨rfl, rfl⟩ := hx
  simp only [upd_same, Option.some.injEq] at hf'
  subst hf'
  exact (Reaches.forEach (reaches_fileElem fuel) follows_fileElem f.elements).adds hq

end Gopoet
