import Verif.Spec.FileNames
import Verif.Proof.VisitedLemmas
import Verif.Props.UsedImports
import Verif.Props.RefMeaningFile
/-! Property C67: Go's rules for the names that are declared in a file. -/

namespace Gopoet
open Imports

/-! ### The names of what is written are those of the elements -/

theorem Later.sameNames {h i h' i'} (a : Later h i h' i') : SameNames h h' := by
  have trans : ∀ {a b c : Heap}, SameNames a b → SameNames b c → SameNames a c := fun x y =>
    ⟨fun p => (y.files p).trans (x.files p), fun p => (y.types p).trans (x.types p),
      fun p => (y.methods p).trans (x.methods p), fun p => (y.funcs p).trans (x.funcs p),
      fun p => (y.values p).trans (x.values p), y.valueDecls.trans x.valueDecls, y.typeDecls.trans x.typeDecls,
      y.blocks.trans x.blocks⟩
  refine a.induct (P := fun h1 _ => SameNames h h1) ?_ ?_ (.refl h)
  · exact fun _ _ _ _ s hp => trans hp s.sameNames
  · exact fun h1 _ files hf hp => trans hp ⟨hf, fun _ => rfl, fun _ => rfl, fun _ => rfl, fun _ => rfl, rfl, rfl, rfl⟩

theorem SameNames.declared {h h' : Heap} (a : SameNames h h') (e : FileElem) : e.declared h' = e.declared h := by
  cases e with
  | types p =>
    have : typeDeclared h' = typeDeclared h := by
      funext q
      have := congrArg (Option.map (fun x => Declared.name x.1)) (a.types q)
      simp only [Option.map_map] at this
      exact congrArg Option.toList this
    simp only [FileElem.declared, a.typeDecls, this]
  | values p =>
    have : valueDeclared h' = valueDeclared h := by
      funext q
      have := a.values q
      unfold valueDeclared
      cases h1 : h.values q <;> cases h2 : h'.values q <;> simp_all
    simp only [FileElem.declared, a.valueDecls, this]
  | func p =>
    have := a.funcs p
    simp only [FileElem.declared]
    cases h1 : h.funcs p <;> cases h2 : h'.funcs p <;> simp_all

theorem Declares.declared {env : Env} {h : Heap} {e : FileElem} {d : DeclSyn} (hd : Declares env h e d) :
    d.declared = e.declared h := by
  have types : ∀ {ps ds}, List.Forall₂ (DeclaresType h) ps ds → ds.map (fun d => Declared.name d.name) = ps.flatMap (typeDeclared h) := by
    intro ps ds hh
    induction hh with
    | nil => rfl
    | @cons p x ps ds h1 _ ih =>
      obtain ⟨ts, k1, _, k2, _⟩ := h1
      rw [List.map_cons, List.flatMap_cons, ih, typeDeclared, k1, k2]
      rfl
  have values : ∀ {c ps vs}, List.Forall₂ (DeclaresValue env h c) ps vs →
      vs.flatMap (fun v => v.names.map Declared.name) = ps.flatMap (valueDeclared h) := by
    intro c ps vs hh
    induction hh with
    | nil => rfl
    | @cons p x ps vs h1 _ ih =>
      obtain ⟨cs, k1, _, _, k2, _⟩ := h1
      rw [List.flatMap_cons, List.flatMap_cons, ih, valueDeclared, k1, k2]
  cases hd with
  | type h1 _ _ h2 => simpa [DeclSyn.declared, FileElem.declared, h1] using types h2
  | types h1 _ h2 => simpa [DeclSyn.declared, FileElem.declared, h1] using types h2
  | value h1 _ _ h2 => simpa [DeclSyn.declared, FileElem.declared, h1] using values h2
  | values h1 _ h2 => simpa [DeclSyn.declared, FileElem.declared, h1] using values h2
  | @func p f code body h1 =>
    simp only [FileElem.declared, h1]
    cases hr : f.receiver with
    | none => rfl
    | some r =>
      simp only [Option.map_some, DeclSyn.declared, ReceiverSpec.param]
      cases r.isPointer <;> rfl

theorem declares_declared {env : Env} {h : Heap} : ∀ {es ds}, List.Forall₂ (Declares env h) es ds →
    ds.flatMap DeclSyn.declared = es.flatMap (FileElem.declared h) := by
  intro es ds hh
  induction hh with
  | nil => rfl
  | cons h1 _ ih => rw [List.flatMap_cons, List.flatMap_cons, ih, h1.declared]

/-! ### The names of imports -/

/-- The names that import statements bind are the qualifiers of the packages, which differ. -/
theorem binds_qualifier {realName : GoString → GoString} {i : Imports} (inv : Inv i) (htn : TrueNames realName i)
    {s : ImportSpec} (hs : s ∈ i.importSpecs) : s.binds realName = i.qualifierOf s.importPath := by
  obtain ⟨d, hd, hb⟩ := binds_of_trueNames inv htn s hs
  have hown : s.importPath ≠ i.pkgPath := by rintro e; rw [e, inv.ownAbsent] at hd; cases hd
  rw [hb, Imports.qualifierOf, if_neg hown, hd]

theorem binds_distinct {realName : GoString → GoString} {i : Imports} (inv : Inv i) (htn : TrueNames realName i) :
    (i.importSpecs.map (·.binds realName)).Nodup := by
  have hn := importSpecs_nodup inv
  rw [List.nodup_map_iff_inj_on (List.Nodup.of_map _ hn)]
  intro s hs t ht he
  obtain ⟨d, hd, hb⟩ := binds_of_trueNames inv htn s hs
  obtain ⟨d', hd', hb'⟩ := binds_of_trueNames inv htn t ht
  have h1 := inv.toName _ _ hd
  have h2 := inv.toName _ _ hd'
  rw [← hb, he, hb', h2] at h1
  exact List.inj_on_of_nodup_map hn hs ht (Option.some.inj h1).symm

/-- C67, exactly: the names in the text that is written for a file keep Go's rules if and only if the elements of the file
(with those of the other files of the package) do, and no package that is imported is called like a declaration of the
package or `init`. What is missing from the full property is the latter condition: see `C67_full_fails`. -/
theorem C67_iff_partial {realName : GoString → GoString} {env : Env} {fuel : Nat} {p : Ptr} {h h' : Heap} {f f' : GoFile}
    {text : GoString} {ds : List DeclSyn} (others : List Declared) (hn : NoCopyImported h f'.imports) (hf : h.files p = some f)
    (ht : TruthfulInput realName h f) (hi : NameableInput h f) (hr : renderFile env fuel p h = (.ok text, h'))
    (hf' : h'.files p = some f') (hp : isIdent f.packageName = true) (hd : List.Forall₂ (Declares env h') f.elements ds) :
    ∃ src, parseGoFile text = some src ∧ src.declared = f.declared h ∧
      (src.LegalNames others realName ↔
        (others ++ f.declared h).Nodup ∧ .name (b! "init") ∉ f.declared h ∧
        ∀ path ∈ f'.imports.importedPaths, .name (f'.imports.qualifierOf path) ∉ others ++ f.declared h ∧
          f'.imports.qualifierOf path ≠ b! "init") := by
  obtain ⟨g, g', h1, h2, h3, h4, h5⟩ := qualifyFile_settled (qualifyFile_of_renderFile hr)
  rw [hf] at h1
  rw [hf'] at h2
  obtain rfl := Option.some.inj h1
  obtain rfl := Option.some.inj h2
  obtain ⟨inv, htn⟩ := ht.after hn h5
  have hdecl : SourceFile.declared ⟨f.packageName, f'.imports.importSpecs.map ImportSpec.syn, ds⟩ = f.declared h := by
    rw [SourceFile.declared, GoFile.declared, declares_declared hd]
    congr 2
    funext e
    exact h5.sameNames.declared e
  have hspecs : ∀ {P : GoString → Prop}, (∀ s ∈ f'.imports.importSpecs.map ImportSpec.syn, P (s.spec.binds realName)) ↔
      ∀ path ∈ f'.imports.importedPaths, P (f'.imports.qualifierOf path) := by
    intro P
    simp only [Imports.importedPaths, List.forall_mem_map, syn_spec]
    exact ⟨fun h s hs => binds_qualifier inv htn hs ▸ h s hs, fun h s hs => binds_qualifier inv htn hs ▸ h s hs⟩
  refine ⟨_, C55_written_file hn hf hi hr hf' hp hd, hdecl, fun hl => ?_, fun ⟨k1, k2, k3⟩ => ?_⟩
  · obtain ⟨l1, l2, -, l4⟩ := hl
    rw [hdecl] at l1 l2
    refine ⟨l1, l2, ?_⟩
    rw [hdecl] at l4
    exact (hspecs (P := fun n => .name n ∉ others ++ f.declared h ∧ n ≠ b! "init")).1 l4
  · refine ⟨hdecl ▸ k1, hdecl ▸ k2, ?_, ?_⟩
    · simp only [List.map_map]
      convert binds_distinct inv htn using 2
      funext s
      simp only [Function.comp_apply, syn_spec]
    · rw [hdecl]
      exact (hspecs (P := fun n => .name n ∉ others ++ f.declared h ∧ n ≠ b! "init")).2 k3

/-! ### Conditions on the input -/

/-- None of the names that a package can get in the file is in the list: not its own name, nor that name with a number. -/
structure NamesAvoid (h : Heap) (f : GoFile) (names : List GoString) : Prop where
  imported : ∀ p ∈ f.imports.importedPaths, f.imports.qualifierOf p ∉ names
  mentioned : ∀ pk, Mentioned h pk → (∀ n, candidate (baseName pk) n ∉ names) ∨ pk = ⟨[], []⟩ ∨
    pk.importPath = f.imports.pkgPath ∨ pk.importPath ∈ f.imports.importedPaths

/-- The names in the table are not in the list. -/
def AvoidNames (D : List GoString) (i : Imports) : Prop := ∀ p d, i.importsByPath.get p = some d → d.packageName ∉ D

/-- The names that the package can get are not in the list, or will not be looked at. -/
def AvoidOrKnown (D : List GoString) (i : Imports) (pk : Package) : Prop :=
  (∀ n, candidate (baseName pk) n ∉ D) ∨ PkgKnown i pk

theorem Step.avoidNames {D : List GoString} (hD : ∀ n ∈ D, isIdent n = true) {P : Package → Prop} {i j : Imports}
    (hs : Step P i j) (hP : ∀ pk, P pk → j.importsByPath.get pk.importPath ≠ none → AvoidOrKnown D i pk)
    (ht : AvoidNames D i) : AvoidNames D j := by
  obtain ⟨pkg, q, hp, hown, hnone, ⟨n, rfl, hfree, hleast⟩, rfl⟩ := hs
  intro p d hd
  simp only [Imports.add, GoMap.get_set] at hd
  split at hd
  · obtain rfl := Option.some.inj hd
    dsimp only
    rcases hP pkg hp (by simp [Imports.add]) with h | rfl | h | h
    · exact h n
    · intro hm
      have := hD _ hm
      have hb : baseName ⟨[], []⟩ = b! "." := by decide
      rw [hb] at this
      cases n with
      | zero => exact absurd this (by decide)
      | succ n =>
        have hdot : isLetterByte (46 : UInt8) = false := by decide
        simp [candidate, isIdent, hdot] at this
    · exact absurd h hown
    · exact absurd hnone h
  · exact ht p d hd

theorem Evolves.avoidNames {D : List GoString} (hD : ∀ n ∈ D, isIdent n = true) {P : Package → Prop} {i j : Imports}
    (h : Evolves P i j) (hP : ∀ pk, P pk → j.importsByPath.get pk.importPath ≠ none → AvoidOrKnown D i pk)
    (ht : AvoidNames D i) : AvoidNames D j := by
  induction h with
  | refl => exact ht
  | step he hs ih =>
    have hs' := hs.ext
    exact hs.avoidNames hD (fun pk hp hj => (hP pk hp hj).imp id he.ext.known)
      (ih fun pk hp hj => hP pk hp (hs'.imported hj))

/-- What is known before and after a pass, compare `IdentState`. -/
structure AvoidState (D : List GoString) (N : Prop) (h : Heap) (i : Imports) : Prop where
  names : AvoidNames D i
  mentioned : ∀ pk, Mentioned h pk → AvoidOrKnown D i pk ∨ (pk.importPath = [] ∧ ¬ N)

theorem Later.avoid {D : List GoString} (hD : ∀ n ∈ D, isIdent n = true) {h i h' i'} (a : Later h i h' i')
    (ht : AvoidState D (NoSpecData h) h i) (hn : NoSpecData h ∨ i'.importsByPath.get [] = none) :
    AvoidState D (NoSpecData h) h' i' := by
  have := a.induct (P := fun h1 i1 => (NoSpecData h → NoSpecData h1) ∧
    ((NoSpecData h ∨ i1.importsByPath.get [] = none) → AvoidState D (NoSpecData h) h1 i1)) ?_ ?_
    ⟨id, fun _ => ht⟩
  · exact this.2 hn
  · rintro h0 i h' i' s ⟨h1, h2⟩
    refine ⟨fun h => (Later.step (.refl _ _) s).noSpecData (h1 h), fun hc => ?_⟩
    have hc' : NoSpecData h ∨ i.importsByPath.get [] = none := hc.imp_right fun hj => by
      by_contra hne
      exact s.ext.imported hne hj
    obtain ⟨h2, h3⟩ := h2 hc'
    refine ⟨s.registers.avoidNames hD (fun pk hm hj => ?_) h2, fun pk hm => ?_⟩
    · rcases h3 pk hm with h4 | ⟨h4, h5⟩
      · exact h4
      · rcases hc with hc | hc
        · exact absurd hc h5
        · exact absurd (h4 ▸ hc) hj
    · rcases s.mentioned hm with hm | hm | ⟨hm, h5⟩
      · exact (h3 pk hm).imp_left (Or.imp id s.ext.known)
      · exact .inl (.inr hm)
      · exact .inr ⟨hm, fun hn => h5 (h1 hn)⟩
  · rintro h0 i files hf ⟨h1, h2⟩
    refine ⟨h1, fun hc => ⟨(h2 hc).names, fun pk hm => (h2 hc).mentioned pk ?_⟩⟩
    cases hm with
    | @file p f hp =>
      obtain ⟨f', h4, h5⟩ := files_samePackages (fun p => (hf p).symm) p f hp
      rw [← h5]
      exact .file h4
    | value h1 h2 h3 => exact .value h1 h2 h3
    | type h1 h2 => exact .type h1 h2
    | field h1 h2 h3 => exact .field h1 h2 h3
    | embed h1 => exact .embed h1
    | method h1 h2 => exact .method h1 h2
    | func h1 h2 => exact .func h1 h2
    | arg h1 h2 h3 => exact .arg h1 h2 h3
    | templ h1 h2 => exact .templ h1 h2

/-- After a file is written, no package in it has a name that the packages avoid. -/
theorem NamesAvoid.after {D : List GoString} (hD : ∀ n ∈ D, isIdent n = true) {h : Heap} {f : GoFile} (ha : NamesAvoid h f D)
    (inv : Inv f.imports) {h' : Heap} {i' : Imports} (hn : NoCopyImported h i') (a : Later h f.imports h' i') :
    ∀ path ∈ i'.importedPaths, i'.qualifierOf path ∉ D := by
  have hs : AvoidState D (NoSpecData h) h f.imports := by
    refine ⟨fun p d hd hm => ?_, fun pk hm => .inl ?_⟩
    · have hown : p ≠ f.imports.pkgPath := by rintro e; rw [e, inv.ownAbsent] at hd; cases hd
      refine ha.imported p ((mem_importPaths _ _).2 (by rw [hd]; simp)) ?_
      rwa [Imports.qualifierOf, if_neg hown, hd]
    · exact (ha.mentioned pk hm).imp id (Or.imp id (Or.imp id fun hk => (mem_importPaths _ _).1 hk))
  intro path hp
  obtain ⟨d, hd⟩ := Option.ne_none_iff_exists'.1 ((mem_importPaths _ _).1 hp)
  have inv' := a.inv inv
  have hown : path ≠ i'.pkgPath := by rintro e; rw [e, inv'.ownAbsent] at hd; cases hd
  rw [Imports.qualifierOf, if_neg hown, hd]
  exact (a.avoid hD hs hn.get).names path d hd

/-- What is visible in the package is visible in a file, if no import takes a name of the package or a predeclared one. -/
theorem visible_of_apart {sc : FileScope} {ref : Reference} (hv : ref.valid)
    (ha : ∀ s ∈ sc.imports, s.binds sc.realName ∉ sc.decls ++ predeclaredNames)
    (hp : (packageScope sc.own sc.decls).Visible ref) : sc.Visible ref := by
  have apart : ∀ s ∈ sc.imports, ∀ n, n ∈ sc.decls ∨ n ∈ predeclaredNames → s.binds sc.realName ≠ n := by
    rintro s hs n hn rfl
    exact ha s hs (List.mem_append.2 hn)
  have reaches : ∀ {s : Symbol}, (packageScope sc.own sc.decls).Reaches s → sc.Reaches s := by
    rintro s ⟨h1, h2, -⟩
    refine ⟨h1, h2, fun hb p hp => apart p hp _ ?_⟩
    by_cases hb' : s.package = ⟨[], []⟩
    · exact h2 hb'
    · exact .inl (h1 hb' (hb.resolve_left hb'))
  have univ : ∀ {n x}, GoMap.get universeBlock n = some x → n ∈ predeclaredNames := by
    intro n x hx
    exact List.mem_append_left _ (List.mem_map.2 ⟨(n, x), GoMap.mem_of_get hx, rfl⟩)
  cases ref with
  | package p => exact hp
  | symbol s => exact reaches hp
  | method m => exact reaches hp
  | type t =>
    obtain ⟨h1, h2, h3, h4, -, -⟩ := hp
    refine ⟨h1, h2, h3, h4, fun s hs hb p hp => apart p hp _ ?_, fun k hk p hp => apart p hp _ (.inr ?_)⟩
    · by_cases hb' : s.package = ⟨[], []⟩
      · have := h3 s hs hb'
        rw [FileScope.lookup] at this
        split at this
        · next hm => exact .inl hm
        · obtain ⟨x, hx⟩ := Option.ne_none_iff_exists'.1 this
          exact .inr (univ hx)
      · exact .inl (h2 s hs hb' (hb.resolve_left hb'))
    · exact univ (universe_kindIdent (basics_valid hv k hk))

/-- The names that are declared, without methods. -/
def Declared.names (l : List Declared) : List GoString := l.filterMap fun
  | .name n => some n
  | .method .. => none

theorem Declared.mem_names {l : List Declared} {n : GoString} : n ∈ Declared.names l ↔ .name n ∈ l := by
  simp only [Declared.names, List.mem_filterMap]
  constructor
  · rintro ⟨a, h1, h2⟩
    split at h2
    · cases h2; exact h1
    · cases h2
  · exact fun h => ⟨_, h, rfl⟩

theorem Declares.ident {env : Env} {h : Heap} {e : FileElem} {d : DeclSyn} (hd : Declares env h e d) {n : GoString}
    (hn : .name n ∈ d.declared) : isIdent n = true := by
  have types : ∀ {ps ds}, List.Forall₂ (DeclaresType h) ps ds → ∀ {d : DeclaredType}, d ∈ ds → isIdent d.name = true := by
    intro ps ds hh d hd
    obtain ⟨p, _, ts, _, k1, k2, _⟩ := forall₂_mem_right hh hd
    rw [k2]; exact k1
  have values : ∀ {c ps vs}, List.Forall₂ (DeclaresValue env h c) ps vs → ∀ {v : ValueSyn}, v ∈ vs → ∀ {n}, n ∈ v.names →
      isIdent n = true := by
    intro c ps vs hh v hv n hn
    obtain ⟨p, _, cs, _, _, k1, k2, _⟩ := forall₂_mem_right hh hv
    rw [k2] at hn; exact k1 n hn
  cases hd with
  | type h1 _ _ h2 =>
    simp only [DeclSyn.declared, List.mem_singleton, Declared.name.injEq] at hn
    subst hn
    exact types h2 (by simp)
  | types h1 _ h2 =>
    obtain ⟨d, k1, k2⟩ := List.mem_map.1 hn
    cases k2
    exact types h2 k1
  | value h1 _ _ h2 =>
    obtain ⟨d, k1, k2⟩ := List.mem_map.1 hn
    cases k2
    exact values h2 (List.mem_singleton.2 rfl) k1
  | values h1 _ h2 =>
    obtain ⟨v, k1, k2⟩ := List.mem_flatMap.1 hn
    obtain ⟨d, k3, k4⟩ := List.mem_map.1 k2
    cases k4
    exact values h2 k1 k3
  | @func p f code body h1 h2 =>
    cases hr : f.receiver with
    | none =>
      simp only [hr, Option.map_none, DeclSyn.declared] at hn
      split at hn
      · cases hn
      · simp only [List.mem_singleton, Declared.name.injEq] at hn
        rw [hn]; exact h2
    | some r => simp [hr, DeclSyn.declared] at hn

/-- Used by C67 and C69: `C67_file_partial` with all that the package declares in any order. -/
theorem file_names_all {realName : GoString → GoString} {env : Env} {fuel : Nat} {p : Ptr} {h h' : Heap} {f f' : GoFile}
    {text : GoString} {Ms : List DeclMeaning} (others all : List Declared)
    (hall : ∀ d, d ∈ all ↔ d ∈ others ++ f.declared h)
    (hf : h.files p = some f) (hf' : h'.files p = some f') (hne : [] ∉ f'.imports.importedPaths)
    (ht : TruthfulInput realName h f) (hi : NameableInput h f) (hp : isIdent f.packageName = true) (hy : Tidy h f)
    (hm : List.Forall₂ (Intends (packageScope f.imports.pkgPath (Declared.names all)) h) f.elements Ms)
    (hr : renderFile env fuel p h = (.ok text, h')) (hc : ∀ e ∈ f.elements, CodeReads env h' e)
    (hid : ∀ n ∈ Declared.names others, isIdent n = true)
    (hl1 : (others ++ f.declared h).Nodup) (hl2 : .name (b! "init") ∉ f.declared h)
    (ha : NamesAvoid h f (Declared.names all ++ predeclaredNames ++ [b! "init"])) :
    ∃ src, parseGoFile text = some src ∧ src.package = f.packageName ∧ src.declared = f.declared h ∧
      src.LegalNames others realName ∧
      src.meaning f.imports.pkgPath (Declared.names all) realName = some Ms ∧
      (∀ s ∈ src.imports, s.path ∉ f.imports.importedPaths → s.UsedIn realName src ∨
        ∃ e ∈ f.elements, ∃ x pk, e.HasCode h x ∧ UsedCodeElem h f'.imports x pk ∧ pk.importPath = s.path) ∧
      ∀ e ∈ f.elements, ∀ q (l : List Arg) (n : Nat) a ref, HasLine h e q → h.args q = some l → l[n]? = some a → Denotes h a ref →
        ref.valid → ref.wellNamed = true → (∀ o text, a ≠ .goObject o text) →
        (packageScope f.imports.pkgPath (Declared.names all)).Visible ref →
        ∃ l' a' s, h'.args q = some l' ∧ l'[n]? = some a' ∧ a'.shown env.isPrint h' = .str s ∧
          (src.scope f.imports.pkgPath (Declared.names all) realName).Means s ref := by
  obtain ⟨g, g', h1, h2, h3, h4, h5⟩ := qualifyFile_settled (qualifyFile_of_renderFile hr)
  rw [hf] at h1
  rw [hf'] at h2
  obtain rfl := Option.some.inj h1
  obtain rfl := Option.some.inj h2
  have hn : NoCopyImported h f'.imports := .inr hne
  obtain ⟨inv', htn⟩ := ht.after hn h5
  have r : Readable f'.imports realName := ⟨inv', htn, (h5.ident hi.state hn.get).names⟩
  have hown : f'.imports.pkgPath = f.imports.pkgPath := h5.ext.own
  have he : f'.elements = f.elements := by rw [h3]
  obtain ⟨ds, hds, -⟩ := elems_declare (decls := Declared.names all) r h5 (by rw [hown]; exact hm) hc
    fun e hm pk hw => (h4 e (by rw [he]; exact hm)).written hw
  obtain ⟨src, k1, k2, k3⟩ := C67_iff_partial others hn hf ht hi hr hf' hp hds
  obtain ⟨-, src', l1, l2, l3, -⟩ := written_file_meaning hn hf hf' ht hi hp hm hr hc
  obtain ⟨src'', m1, m2⟩ := C62_text_partial hn hf hf' ht hi hp hm hy hr hc
  obtain ⟨src3, n1, n2, n3⟩ := C66_text_partial hf ht hi hp hm hr hc hf' hne
  rw [k1] at l1 m1 n1
  cases l1; cases m1; cases n1
  have hD : ∀ n ∈ Declared.names all ++ predeclaredNames ++ [b! "init"], isIdent n = true := by
    have hpre : ∀ n ∈ predeclaredNames ++ [b! "init"], isIdent n = true := by decide
    intro n hn
    rw [List.append_assoc] at hn
    rcases List.mem_append.1 hn with hn | hn
    · rcases List.mem_append.1 ((hall _).1 (Declared.mem_names.1 hn)) with hn | hn
      · exact hid n (Declared.mem_names.2 hn)
      · rw [GoFile.declared] at hn
        obtain ⟨e, g1, g2⟩ := List.mem_flatMap.1 (List.mem_filter.1 hn).1
        obtain ⟨d, -, g3⟩ := forall₂_mem_left hds g1
        refine g3.ident (n := n) ?_
        rw [g3.declared, h5.sameNames.declared]
        exact g2
    · exact hpre n hn
  obtain ⟨history, hh, -⟩ := ht.history
  have inv : Inv f.imports := by rw [hh]; exact inv_after history
  have hav := ha.after hD inv hn h5
  have hapart : ∀ s ∈ src.imports, s.spec.binds realName ∉
      Declared.names all ++ predeclaredNames ++ [b! "init"] := by
    intro s hs
    rw [l3] at hs
    obtain ⟨s, hs', rfl⟩ := List.mem_map.1 hs
    rw [syn_spec, binds_qualifier inv' htn hs']
    exact hav _ (List.mem_map.2 ⟨s, hs', rfl⟩)
  have hu : src.Unshadowed (Declared.names all) realName := by
    intro s hs
    have := hapart s hs
    simp only [List.mem_append, not_or] at this
    exact ⟨by simpa [Declared.mem_names] using this.1.1, fun hm => this.1.2 (List.mem_append_left _ hm)⟩
  refine ⟨src, k1, l2, k2, k3.2 ⟨hl1, hl2, fun path hpath => ?_⟩, n2 hu, fun s hs hb => ?_, ?_⟩
  · have := hav path hpath
    simp only [List.mem_append, not_or, Declared.mem_names, hall] at this
    exact ⟨by simpa using this.1.1, fun h => this.2 (by rw [h]; simp)⟩
  · refine m2 hu s hs ?_ hb
    rintro e
    rw [l3] at hs
    obtain ⟨s, hs', rfl⟩ := List.mem_map.1 hs
    exact hne (List.mem_map.2 ⟨s, hs', e⟩)
  · intro e he q l n a ref hl hq hn hd hv hw hg hvis
    obtain ⟨l', a', g1, g2, g3⟩ := n3 e he q l n a ref hl hq hn hd hv hw hg
    have hst : Stored a f'.imports ref := by
      cases ref with
      | method m =>
        intro hin
        have hmem : a ∈ l := List.mem_of_getElem? hn
        have hline : LineIn h e l := by
          cases hl with
          | init t1 t2 t3 t4 t5 t6 => exact .init t1 t2 t3 t4 t5 t6 hq
          | func t1 t2 => exact .code t1 t2 hq
        rcases hy.methods e he l hline a hmem m hd with rfl | rfl <;> simp [Arg.indirect] at hin
      | _ => trivial
    have hvis' : (src.scope f.imports.pkgPath (Declared.names all) realName).Visible ref := by
      refine visible_of_apart hv (fun s hs => ?_) hvis
      obtain ⟨s, hs', rfl⟩ := List.mem_map.1 hs
      have := hapart s hs'
      simp only [List.mem_append, not_or] at this ⊢
      exact this.1
    obtain ⟨s, g4, g5⟩ := g3.2 ⟨hst, hvis'⟩
    exact ⟨l', a', s, g1, g2, g4, g5⟩

/-- C67 for whole files, with conditions on the input: if the elements of a file (with those of the other files of the package)
keep Go's rules and the packages that the file mentions have names that no declaration of the package has (also not
followed by a number), nor predeclared things or `init`, then the text is a source file that keeps the rules, means what it was
built to mean, uses the imports that were added to it, and in whose code every reference that is visible in the package refers
to what it stands for. Besides, package names are truthful and identifiers, and the file is as C56 and C62 need it. What is
missing from the full property: see `C67_full_fails`. -/
theorem C67_file_partial {realName : GoString → GoString} {env : Env} {fuel : Nat} {p : Ptr} {h h' : Heap} {f f' : GoFile}
    {text : GoString} {Ms : List DeclMeaning} (others : List Declared)
    (hf : h.files p = some f) (hf' : h'.files p = some f') (hne : [] ∉ f'.imports.importedPaths)
    (ht : TruthfulInput realName h f) (hi : NameableInput h f) (hp : isIdent f.packageName = true) (hy : Tidy h f)
    (hm : List.Forall₂ (Intends (packageScope f.imports.pkgPath (Declared.names (others ++ f.declared h))) h) f.elements Ms)
    (hr : renderFile env fuel p h = (.ok text, h')) (hc : ∀ e ∈ f.elements, CodeReads env h' e)
    (hid : ∀ n ∈ Declared.names others, isIdent n = true)
    (hl1 : (others ++ f.declared h).Nodup) (hl2 : .name (b! "init") ∉ f.declared h)
    (ha : NamesAvoid h f (Declared.names (others ++ f.declared h) ++ predeclaredNames ++ [b! "init"])) :
    ∃ src, parseGoFile text = some src ∧ src.package = f.packageName ∧ src.LegalNames others realName ∧
      src.meaning f.imports.pkgPath (Declared.names (others ++ f.declared h)) realName = some Ms ∧
      (∀ s ∈ src.imports, s.path ∉ f.imports.importedPaths → s.UsedIn realName src ∨
        ∃ e ∈ f.elements, ∃ x pk, e.HasCode h x ∧ UsedCodeElem h f'.imports x pk ∧ pk.importPath = s.path) ∧
      ∀ e ∈ f.elements, ∀ q (l : List Arg) (n : Nat) a ref, HasLine h e q → h.args q = some l → l[n]? = some a → Denotes h a ref →
        ref.valid → ref.wellNamed = true → (∀ o text, a ≠ .goObject o text) →
        (packageScope f.imports.pkgPath (Declared.names (others ++ f.declared h))).Visible ref →
        ∃ l' a' s, h'.args q = some l' ∧ l'[n]? = some a' ∧ a'.shown env.isPrint h' = .str s ∧
          (src.scope f.imports.pkgPath (Declared.names (others ++ f.declared h)) realName).Means s ref := by
  obtain ⟨src, h1, h2, -, h3⟩ := file_names_all others (others ++ f.declared h) (fun _ => .rfl) hf hf' hne ht hi hp hy hm hr hc
    hid hl1 hl2 ha
  exact ⟨src, h1, h2, h3⟩

/-! ### The full property fails -/

/-- C67 in full: if the declarations of the package keep Go's rules, so do the names in the text. It is false, see
`C67_full_fails`. -/
def C67_full : Prop :=
  ∀ (realName : GoString → GoString) (env : Env) (fuel : Nat) (p : Ptr) (h h' : Heap) (f f' : GoFile) (text : GoString)
    (ds : List DeclSyn) (others : List Declared), NoCopyImported h f'.imports → h.files p = some f →
    TruthfulInput realName h f → NameableInput h f → renderFile env fuel p h = (.ok text, h') → h'.files p = some f' →
    isIdent f.packageName = true → List.Forall₂ (Declares env h') f.elements ds →
    (others ++ f.declared h).Nodup → .name (b! "init") ∉ f.declared h →
    ∃ src, parseGoFile text = some src ∧ src.LegalNames others realName

/-- A file with `var time time.Time`. -/
def exTime : Heap where
  files p := if p = 0 then some { name := b! "p.go", packageName := b! "p", imports := newImportsFor (b! "x/p")
                                  elements := [.values 1] } else none
  valueDecls p := if p = 1 then some { kind := .var, specs := [2] } else none
  values p := if p = 2 then some { kind := .var, names := [b! "time"], parent := some 0
                                   type := .name (.named ⟨⟨b! "time", b! "time"⟩, b! "Time"⟩) } else none

theorem exTime_text : (renderFile exEnv 3 0 exTime).1 = .ok (b! "package p\n\nimport \"time\"\n\nvar time time.Time\n") := by
  decide +kernel

theorem exTime_mentioned {pk : Package} (hm : Mentioned exTime pk) :
    pk = ⟨b! "time", b! "time"⟩ ∨ pk = ⟨b! "x/p", b! "p"⟩ := by
  cases hm with
  | file h =>
    simp only [exTime] at h
    split at h
    · cases h; decide
    · simp at h
  | value h h2 h3 =>
    simp only [exTime] at h
    split at h
    · cases h; cases h2
      exact .inl (List.mem_singleton.1 h3)
    · simp at h
  | type h => simp [exTime] at h
  | field h => simp [exTime] at h
  | embed h => simp [exTime] at h
  | method h => simp [exTime] at h
  | func h => simp [exTime] at h
  | arg h => simp [exTime] at h
  | templ h => simp [exTime] at h

/-- Go rejects the file of the example, since `time` is declared by the import and by the variable. -/
theorem C67_full_fails : ¬ C67_full := by
  intro hfull
  let f : GoFile := { name := b! "p.go", packageName := b! "p", imports := newImportsFor (b! "x/p"), elements := [.values 1] }
  obtain ⟨f', hf'⟩ : ∃ f', (renderFile exEnv 3 0 exTime).2.files 0 = some f' := ⟨_, rfl⟩
  obtain ⟨src, h1, h2⟩ := hfull (fun _ => b! "time") exEnv 3 0 exTime (renderFile exEnv 3 0 exTime).2 f f'
    (b! "package p\n\nimport \"time\"\n\nvar time time.Time\n")
    [.value false ⟨[b! "time"], some (.name (some (b! "time"), b! "Time")), none⟩] []
    (.inl (by intro p t h; simp [exTime] at h)) rfl
    ⟨⟨[], rfl, by simp⟩, fun pk hm => by rcases exTime_mentioned hm with rfl | rfl <;> decide⟩
    ⟨⟨[], rfl, by simp⟩, fun pk hm => by rcases exTime_mentioned hm with rfl | rfl <;> decide⟩
    (by rw [← exTime_text]) hf' (by decide)
    (.cons (.value (d := { kind := .var, specs := [2] }) rfl rfl rfl (.cons
      ⟨{ kind := .var, names := [b! "time"], parent := some 0, type := .name (.named ⟨⟨b! "time", b! "time"⟩, b! "Time"⟩) },
        rfl, by decide, by decide, rfl, .name ⟨rfl, rfl, rfl⟩, .none, rfl⟩ .nil)) .nil)
    (by decide) (by decide)
  obtain rfl := Option.some.inj h1
  exact (h2.apart ⟨none, b! "time"⟩ (List.mem_singleton.2 rfl)).1 (by decide)

/-! ### An example -/

theorem candidate_head {b : UInt8} {base : GoString} {names : List GoString} (h : ∀ n ∈ names, n.head? ≠ some b) (n : Nat) :
    candidate (b :: base) n ∉ names := by
  intro hm
  refine h _ hm ?_
  cases n <;> rfl

/-- The file of the example. -/
def exCalls_file : GoFile :=
  { name := b! "p.go", packageName := b! "p", imports := newImportsFor (b! "x/p"), elements := [.func 1, .func 2] }

theorem exCalls_text : (renderFile exEnv 3 0 exCalls).1 = .ok (b! "package p\n\nimport \"x/q\"\nimport q1 \"y/q\"\n\nfunc F() {\nq.A(q1.B(G))\n}\n\nfunc G() {\n}\n") := by
  decide +kernel

/-- The conditions hold for the example of C66: the two imports called `q` and `q1` are used and clash with nothing, also if
another file of the package declares a function `len1`, and the second argument of the line refers to `B` of y/q. -/
example : ∃ src, parseGoFile (b! "package p\n\nimport \"x/q\"\nimport q1 \"y/q\"\n\nfunc F() {\nq.A(q1.B(G))\n}\n\nfunc G() {\n}\n") = some src ∧
    src.LegalNames [.name (b! "len1")] exRealName ∧ ∃ s l' a', (renderFile exEnv 3 0 exCalls).2.args 3 = some l' ∧ l'[1]? = some a' ∧
    a'.shown exEnv.isPrint (renderFile exEnv 3 0 exCalls).2 = .str s ∧
    (src.scope (b! "x/p") [b! "len1", b! "F", b! "G"] exRealName).Means s (.symbol ⟨⟨b! "y/q", b! "q"⟩, b! "B"⟩) := by
  obtain ⟨f', hf'⟩ : ∃ f', (renderFile exEnv 3 0 exCalls).2.files 0 = some f' := ⟨_, rfl⟩
  have hp : f'.imports.importSpecs = [⟨[], b! "x/q"⟩, ⟨b! "q1", b! "y/q"⟩] := by
    have : ((renderFile exEnv 3 0 exCalls).2.files 0).map (fun f => f.imports.importSpecs) =
      some [⟨[], b! "x/q"⟩, ⟨b! "q1", b! "y/q"⟩] := by decide +kernel
    rw [hf'] at this
    simpa using this
  have hy : Tidy exCalls exCalls_file := by
    refine ⟨fun e he r ts _ h1 _ => by simp [exCalls] at h1, fun e he r ts _ h1 => by simp [exCalls] at h1, fun e he l hl => ?_⟩
    cases hl with
    | init h1 => simp [exCalls] at h1
    | code h1 h2 h3 =>
      simp only [exCalls] at h3
      split at h3
      · cases h3
        intro a ha m hm
        simp only [List.mem_cons, List.not_mem_nil, or_false] at ha
        rcases ha with rfl | rfl | rfl
        · cases hm
        · cases hm
        · cases hm with
          | method k1 k2 _ _ => simp [exCalls] at k1; subst k1; simp at k2
      · cases h3
  have hc : ∀ e ∈ exCalls_file.elements, CodeReads exEnv (renderFile exEnv 3 0 exCalls).2 e := by
    intro e he
    simp only [exCalls_file, List.mem_cons, List.not_mem_nil, or_false] at he
    rcases he with rfl | rfl
    · refine .func (f := { name := b! "F", parent := some 0, code := [.line (b! "%s(%s(%s))\n") 3] })
        (code := b! "q.A(q1.B(G))\n") rfl (by decide +kernel)
        (.lines (a := b! "q.A(q1.B(G))") (ts := [.ident (b! "q"), .dot, .ident (b! "A"), .lparen, .ident (b! "q1"), .dot,
          .ident (b! "B"), .lparen, .ident (b! "G"), .rparen, .rparen]) (by decide +kernel) ?_)
      exact .tok rfl rfl rfl (.tok rfl rfl rfl (.tok rfl rfl rfl (.group (o := .lparen) (c := .rparen)
        (a := [.ident (b! "q1"), .dot, .ident (b! "B"), .lparen, .ident (b! "G"), .rparen]) rfl
        (.tok rfl rfl rfl (.tok rfl rfl rfl (.tok rfl rfl rfl (.group (o := .lparen) (c := .rparen) (a := [.ident (b! "G")])
          rfl (.tok rfl rfl rfl .nil) .nil)))) (.tok rfl rfl rfl .nil))))
    · exact .func (f := { name := b! "G", parent := some 0 }) (code := []) rfl rfl (.open (ts := []) rfl rfl .nil)
  obtain ⟨src, h1, -, h2, -, -, h3⟩ := C67_file_partial (realName := exRealName) (fuel := 3) (env := exEnv) (p := 0) (h := exCalls)
    (f := exCalls_file) (f' := f') [.name (b! "len1")] rfl hf' (by rw [Imports.importedPaths, hp]; decide)
    ⟨⟨[], rfl, by simp⟩, fun pk hm => by rcases exCalls_mentioned hm with rfl | rfl | rfl <;> decide⟩
    ⟨⟨[], rfl, by simp⟩, fun pk hm => by rcases exCalls_mentioned hm with rfl | rfl | rfl <;> decide⟩ (by decide) hy
    (.cons (.func (f := { name := b! "F", parent := some 0, code := [.line (b! "%s(%s(%s))\n") 3] }) rfl (by decide) rfl rfl rfl
      (by simp) ⟨by decide, by decide, by decide, by decide⟩)
      (.cons (.func (f := { name := b! "G", parent := some 0 }) rfl (by decide) rfl rfl rfl (by simp)
        ⟨by decide, by decide, by decide, by decide⟩) .nil))
    (by rw [← exCalls_text]) hc (by decide) (by decide) (by decide)
    ⟨by decide, fun pk hm => by
      rcases exCalls_mentioned hm with rfl | rfl | rfl
      · exact .inl (candidate_head (b := 113) (by decide))
      · exact .inl (candidate_head (b := 113) (by decide))
      · exact .inr (.inr (.inl rfl))⟩
  obtain ⟨l', a', s, k1, k2, k3, k4⟩ := h3 (.func 1) (by simp [exCalls_file]) 3 _ 1 _ _ (.func rfl (List.mem_singleton.2 rfl)) rfl rfl
    (.symbol _) trivial (by decide) (by simp) (reaches_other (by decide) (by decide))
  exact ⟨src, h1, h2, s, l', a', k1, k2, k3, k4⟩

end Gopoet
