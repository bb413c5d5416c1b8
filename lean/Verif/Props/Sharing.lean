import Verif.Props.Whole
import Verif.Props.Imports
import Verif.Proof.SourceLemmas
/-!
# C44: values that are used in more than one file
-/

namespace Gopoet
open Imports

/-! ## Types and symbols -/

theorem symIn_keeps (i : Imports) (s : Symbol) :
    (i.symIn s).package.importPath = s.package.importPath ∧ (i.symIn s).name = s.name := by
  unfold Imports.symIn Symbol.withPrefix
  split
  · exact ⟨rfl, rfl⟩
  · split <;> exact ⟨rfl, rfl⟩

/-- C44: whatever names the first Imports uses, the result of EnsureTypeImported still has the paths
and names of the original symbols when a second Imports was used on it. -/
theorem C44_same_packages {i1 j1 i2 j2 : Imports} {t t' t'' : TypeName} (hv : t.valid = true)
    (h1 : ensureTypeImported t i1 = (.ok t', j1)) (h2 : ensureTypeImported t' i2 = (.ok t'', j2)) :
    t''.symbols.map (fun s => (s.package.importPath, s.name)) =
      t.symbols.map (fun s => (s.package.importPath, s.name)) := by
  obtain ⟨k1, e1, -, -⟩ := ensureTypeImported_eq (i := i1) hv
  rw [h1] at e1
  obtain ⟨rfl, rfl⟩ : t' = t.mapSymbols k1.symIn ∧ j1 = k1 := by simpa using e1
  obtain ⟨k2, e2, -, -⟩ := ensureTypeImported_eq (i := i2) ((valid_mapSymbols j1.symIn t).trans hv)
  rw [h2] at e2
  obtain ⟨rfl, rfl⟩ : t'' = (t.mapSymbols j1.symIn).mapSymbols k2.symIn ∧ j2 = k2 := by simpa using e2
  rw [symbols_mapSymbols, symbols_mapSymbols, List.map_map, List.map_map]
  refine List.map_congr_left fun s _ => ?_
  simp only [Function.comp]
  rw [(symIn_keeps _ _).1, (symIn_keeps _ _).1, (symIn_keeps _ _).2, (symIn_keeps _ _).2]

/-- C44: in the second Imports as it then is, the original gives the same as the value that went
through the first. (A symbol with a package name and the empty path is the exception, if the first
Imports is for the package with the empty path: it becomes a predeclared name.) -/
theorem C44_same_as_original {i1 j1 i2 j2 : Imports} {t t' t'' : TypeName} (hi : Reachable i1)
    (hv : t.valid = true)
    (hown : i1.pkgPath ≠ [] ∨ ∀ s ∈ t.symbols, s.package.importPath = [] → s.package.name = [])
    (h1 : ensureTypeImported t i1 = (.ok t', j1)) (h2 : ensureTypeImported t' i2 = (.ok t'', j2)) :
    ensureTypeImported t j2 = (.ok t'', j2) := by
  obtain ⟨k1, e1, hc1, hev1⟩ := ensureTypeImported_eq (i := i1) hv
  rw [h1] at e1
  obtain ⟨rfl, rfl⟩ : t' = t.mapSymbols k1.symIn ∧ j1 = k1 := by simpa using e1
  obtain ⟨k2, e2, hc2, -⟩ := ensureTypeImported_eq (i := i2) ((valid_mapSymbols j1.symIn t).trans hv)
  rw [h2] at e2
  obtain ⟨rfl, rfl⟩ : t'' = (t.mapSymbols j1.symIn).mapSymbols k2.symIn ∧ j2 = k2 := by simpa using e2
  obtain ⟨k3, e3, -, hev3⟩ := ensureTypeImported_eq (i := j2) hv
  have inv1 : Inv j1 := hev1.inv hi.inv
  have hpk : j1.pkgPath = i1.pkgPath := hev1.ext.own
  have hb : ∀ s ∈ t.symbols, (j1.symIn s).isBuiltin → s.isBuiltin := by
    intro s hs hb
    by_cases hs' : s.package.name = [] ∧ s.package.importPath = []
    · exact hs'
    have hp : s.package.importPath = [] := (symIn_keeps j1 s).1.symm.trans hb.2
    rcases hown with h6 | h6
    · exfalso
      have hne : s.package.importPath ≠ j1.pkgPath := by rw [hp, hpk]; exact h6.symm
      have hn := hb.1
      rw [Imports.symIn, Symbol.withPrefix, if_neg hs', if_neg hne] at hn
      rcases hc1 s hs with h7 | h7 | h7
      · exact hs' h7
      · exact hne h7
      · cases hg : j1.importsByPath.get s.package.importPath with
        | none => exact h7 hg
        | some d =>
          simp only [Imports.nameIn, hg] at hn
          exact inv1.nonempty _ _ hg hn
    · exact ⟨h6 s hs hp, hp⟩
  have hcov : ∀ s ∈ t.symbols, Covered j2 s := by
    intro s hs
    have := hc2 (j1.symIn s) (by rw [symbols_mapSymbols]; exact List.mem_map_of_mem hs)
    unfold Covered at this ⊢
    rw [(symIn_keeps j1 s).1] at this
    exact this.imp (hb s hs) id
  have hk := covered_no_change hcov hev3
  subst hk
  rw [e3, mapSymbols_comp]
  congr 2
  refine mapSymbols_congr _ fun s hs => ?_
  by_cases hs' : s.isBuiltin
  · have h' : s.package.name = [] ∧ s.package.importPath = [] := hs'
    have e : j1.symIn s = s := by rw [Imports.symIn, Symbol.withPrefix, if_pos h']
    rw [e]
  · have h1 : ¬ (j1.symIn s).isBuiltin := fun h => hs' (hb s hs h)
    have h2 := symIn_keeps j1 s
    generalize j1.symIn s = x at *
    have h1' : ¬ (x.package.name = [] ∧ x.package.importPath = []) := h1
    have hs'' : ¬ (s.package.name = [] ∧ s.package.importPath = []) := hs'
    unfold Imports.symIn Symbol.withPrefix
    rw [if_neg h1', if_neg hs'']
    obtain ⟨⟨p, n⟩, m⟩ := x
    obtain ⟨⟨p', n'⟩, m'⟩ := s
    obtain ⟨h3, h4⟩ := h2
    dsimp only at h3 h4
    subst h3 h4
    rfl

/-- The package of a symbol in a file with the given imports: predeclared, the file's own or what the
qualifier stands for. -/
def SymbolResolves (realName : GoString → GoString) (i : Imports) (s : Symbol) : Prop :=
  s.package = ⟨[], []⟩ ∨ s.package = ⟨i.pkgPath, []⟩ ∨
    resolveQualifier realName i.importSpecs s.package.name = [s.package.importPath]

/-- C44: a type whose package names are true (or not given) is written with qualifiers that resolve. -/
theorem C44_original_resolves {realName : GoString → GoString} {own : GoString} {history : List Call}
    (hh : ∀ c ∈ history, Truthful realName c.packages) {t t' : TypeName} {j : Imports}
    (hv : t.valid = true) (ht : Truthful realName (t.symbols.map (·.package)))
    (h : ensureTypeImported t ((newImportsFor own).after history) = (.ok t', j)) :
    ∀ s ∈ t'.symbols, SymbolResolves realName j s := by
  intro s hs
  obtain ⟨k, e, hc, hev⟩ := ensureTypeImported_eq (i := (newImportsFor own).after history) hv
  rw [h] at e
  obtain ⟨rfl, rfl⟩ : t' = t.mapSymbols k.symIn ∧ j = k := by simpa using e
  have inv : Inv j := hev.inv (inv_after history)
  have htn : TrueNames realName j := by
    refine hev.trueNames ?_ ((evolves_after history (newImportsFor own)).trueNames ?_ ?_)
    · rintro pk ⟨-, s, hs, -, rfl⟩ -
      exact (ht _ (List.mem_map_of_mem hs)).imp id .inl
    · rintro pk ⟨c, hc, hp⟩ -
      exact (hh c hc pk hp).imp id .inl
    · intro p d hd; simp [newImportsFor] at hd
  rw [symbols_mapSymbols] at hs
  obtain ⟨x, hx, rfl⟩ := List.mem_map.1 hs
  rw [Imports.symIn, Symbol.withPrefix]
  split
  · rename_i hb
    refine .inl ?_
    obtain ⟨⟨p, n⟩, m⟩ := x
    obtain ⟨h1, h2⟩ := hb
    dsimp only at h1 h2
    rw [h1, h2]
  · rename_i hb
    split
    · rename_i ho
      exact .inr (.inl (by rw [ho]))
    · rename_i ho
      rcases hc x hx with h1 | h1 | h1
      · exact absurd h1 hb
      · exact absurd h1 ho
      · cases hg : j.importsByPath.get x.package.importPath with
        | none => exact absurd hg h1
        | some d =>
          refine .inr (.inr ?_)
          simp only [Imports.nameIn, hg]
          exact resolve_of_trueNames inv htn hg

/-- C44 for types in full: a type that was qualified with one Imports can be qualified with another,
and then its qualifiers stand for the same packages there. -/
def C44_types_full : Prop := ∀ (realName : GoString → GoString) (own1 own2 : GoString)
  (history1 history2 : List Call) (t t' t'' : TypeName) (j1 j2 : Imports),
  (∀ c ∈ history1, Truthful realName c.packages) → (∀ c ∈ history2, Truthful realName c.packages) →
  t.valid = true → Truthful realName (t.symbols.map (·.package)) →
  ensureTypeImported t ((newImportsFor own1).after history1) = (.ok t', j1) →
  ensureTypeImported t' ((newImportsFor own2).after history2) = (.ok t'', j2) →
  ∀ s ∈ t''.symbols, SymbolResolves realName j2 s

/-- C44 for types, if the first Imports uses no alias for the type's packages. What is missing: the
names that the first Imports makes up are taken for the packages' real names by the second
(`C44_alias_breaks`), so that the full statement fails (`C44_types_full_fails`). -/
theorem C44_types_partial {realName : GoString → GoString} {i1 : Imports} {own2 : GoString}
    {history2 : List Call} {t t' t'' : TypeName} {j1 j2 : Imports}
    (hh2 : ∀ c ∈ history2, Truthful realName c.packages) (hv : t.valid = true)
    (h1 : ensureTypeImported t i1 = (.ok t', j1))
    (halias : ∀ s ∈ t.symbols, s.package.importPath ∈ j1.importedPaths →
      (prefixFor s.package.importPath j1).1 = .ok (realName s.package.importPath ++ b! "."))
    (h2 : ensureTypeImported t' ((newImportsFor own2).after history2) = (.ok t'', j2)) :
    ∀ s ∈ t''.symbols, SymbolResolves realName j2 s := by
  obtain ⟨k1, e1, hc1, hev1⟩ := ensureTypeImported_eq (i := i1) hv
  rw [h1] at e1
  obtain ⟨rfl, rfl⟩ : t' = t.mapSymbols k1.symIn ∧ j1 = k1 := by simpa using e1
  refine C44_original_resolves hh2 ((valid_mapSymbols j1.symIn t).trans hv) ?_ h2
  intro pk hpk
  rw [symbols_mapSymbols, List.map_map] at hpk
  obtain ⟨s, hs, rfl⟩ := List.mem_map.1 hpk
  simp only [Function.comp, Imports.symIn, Symbol.withPrefix]
  split
  · rename_i hb
    exact .inl hb.1
  · rename_i hb
    split
    · exact .inl rfl
    · rename_i ho
      refine .inr ?_
      dsimp only
      rcases hc1 s hs with h1 | h1 | h1
      · exact absurd h1 hb
      · exact absurd h1 ho
      · have := halias s hs ((mem_importPaths _ _).2 h1)
        cases hg : j1.importsByPath.get s.package.importPath with
        | none => exact absurd hg h1
        | some d =>
          rw [prefixFor, prefixForPackage_known ho hg] at this
          simp only [Outcome.ok.injEq] at this
          simp only [Imports.nameIn, hg]
          exact List.append_cancel_right this

theorem qualifierOf_of_get {i : Imports} (inv : Inv i) {x : GoString} {d : ImportDef}
    (hd : i.importsByPath.get x = some d) : i.qualifierOf x = d.packageName := by
  have ho : x ≠ i.pkgPath := fun ho => by rw [ho, inv.ownAbsent] at hd; cases hd
  rw [Imports.qualifierOf, if_neg ho, hd]

/-- If names that are not true are those of another Imports, the names resolve unless one of these is used without
being declared. -/
theorem names_resolve_iff {realName : GoString → GoString} {i j : Imports} (inv : Inv j)
    (hnames : NamesBy (fun x n => n = realName x ∨ (x ∈ i.importedPaths ∧ i.qualifierOf x = n)) j) :
    (∀ x ∈ j.importedPaths, resolveQualifier realName j.importSpecs (j.qualifierOf x) = [x]) ↔
    ¬ ∃ x ∈ i.importedPaths, i.qualifierOf x ≠ realName x ∧
      j.qualifierOf x = i.qualifierOf x ∧ ⟨[], x⟩ ∈ j.importSpecs := by
  have e : (∀ x ∈ j.importedPaths, resolveQualifier realName j.importSpecs (j.qualifierOf x) = [x]) ↔
      TrueNames realName j := by
    rw [trueNames_iff inv]
    constructor
    · intro h x d hd
      have := h x ((mem_importPaths _ _).2 (by rw [hd]; simp))
      rwa [qualifierOf_of_get inv hd] at this
    · intro h x hx
      cases hd : j.importsByPath.get x with
      | none => exact absurd hd ((mem_importPaths _ _).1 hx)
      | some d => rw [qualifierOf_of_get inv hd]; exact h x d hd
  rw [e]
  constructor
  · rintro h ⟨x, -, h1, h2, h3⟩
    obtain ⟨d, hd, hal⟩ := (mem_importSpecs inv _).1 h3
    have ha : d.isAlias = false := by
      cases hd2 : d.isAlias with
      | false => rfl
      | true => exact absurd (by simpa [hd2] using hal.symm) (inv.nonempty _ _ hd)
    rw [← h2, qualifierOf_of_get inv hd] at h1
    exact h1 (h x d hd ha)
  · intro h x d hd ha
    rcases hnames x d hd ha with h1 | ⟨h1, h2⟩
    · exact h1
    · by_contra hne
      refine h ⟨x, h1, by rw [h2]; exact hne, by rw [h2, qualifierOf_of_get inv hd], ?_⟩
      exact (mem_importSpecs inv _).2 ⟨d, hd, by simp [ha]⟩

/-- C44 for types, exactly: in the second Imports the names of all imports stand for them, unless a package is imported
there without alias under a name that the first made up for it. -/
theorem C44_types_iff_partial {realName : GoString → GoString} {i1 : Imports} {own2 : GoString}
    {history2 : List Call} {t t' t'' : TypeName} {j1 j2 : Imports} (hi : Reachable i1)
    (hh2 : ∀ c ∈ history2, Truthful realName c.packages) (hv : t.valid = true)
    (h1 : ensureTypeImported t i1 = (.ok t', j1))
    (h2 : ensureTypeImported t' ((newImportsFor own2).after history2) = (.ok t'', j2)) :
    (∀ x ∈ j2.importedPaths, resolveQualifier realName j2.importSpecs (j2.qualifierOf x) = [x]) ↔
    ¬ ∃ x ∈ j1.importedPaths, j1.qualifierOf x ≠ realName x ∧
      j2.qualifierOf x = j1.qualifierOf x ∧ ⟨[], x⟩ ∈ j2.importSpecs := by
  obtain ⟨k1, e1, hc1, hev1⟩ := ensureTypeImported_eq (i := i1) hv
  rw [h1] at e1
  obtain ⟨rfl, rfl⟩ : t' = t.mapSymbols k1.symIn ∧ j1 = k1 := by simpa using e1
  obtain ⟨k2, e2, -, hev2⟩ := ensureTypeImported_eq (i := (newImportsFor own2).after history2)
    ((valid_mapSymbols j1.symIn t).trans hv)
  rw [h2] at e2
  obtain ⟨rfl, rfl⟩ : t'' = (t.mapSymbols j1.symIn).mapSymbols k2.symIn ∧ j2 = k2 := by simpa using e2
  have inv1 : Inv j1 := hev1.inv hi.inv
  refine names_resolve_iff (hev2.inv (inv_after history2)) (hev2.namesBy ?_
    ((evolves_after history2 (newImportsFor own2)).namesBy ?_ ?_))
  · rintro pk ⟨-, s, hs, -, rfl⟩ -
    rw [symbols_mapSymbols] at hs
    obtain ⟨s, hs', rfl⟩ := List.mem_map.1 hs
    simp only [Imports.symIn, Symbol.withPrefix]
    split
    · rename_i hb
      exact .inl hb.1
    · rename_i hb
      split
      · exact .inl rfl
      · rename_i ho
        refine .inr (.inl (.inr ?_))
        dsimp only
        rcases hc1 s hs' with h1 | h1 | h1
        · exact absurd h1 hb
        · exact absurd h1 ho
        · cases hg : j1.importsByPath.get s.package.importPath with
          | none => exact absurd hg h1
          | some d =>
            refine ⟨(mem_importPaths _ _).2 h1, ?_⟩
            rw [qualifierOf_of_get inv1 hg]
            simp only [Imports.nameIn, hg]
  · rintro pk ⟨c, hc, hp⟩ -
    exact (hh2 c hc pk hp).imp id (.inl ∘ .inl)
  · intro p d hd; simp [newImportsFor] at hd

/-- C44 fails for a symbol that another Imports gave an alias: if the alias is not taken in the
second Imports, it is used there without being declared. -/
theorem C44_alias_breaks {realName : GoString → GoString} {i j : Imports} {s s' : Symbol} (hi : Reachable i)
    (hown : s.package.importPath ≠ i.pkgPath) (hnew : s.package.importPath ∉ i.importedPaths)
    (hname : s.package.name ≠ []) (halias : s.package.name ≠ realName s.package.importPath)
    (hfree : ¬ InUse i s.package.name) (h : ensureImported s i = (.ok s', j)) :
    s' = s ∧ (⟨[], s.package.importPath⟩ : ImportSpec) ∈ j.importSpecs ∧
      s.package.importPath ∉ resolveQualifier realName j.importSpecs s.package.name := by
  obtain ⟨q, k, e, hr, -⟩ := (C08_ensureImported i s).2 (by intro hp; exact hname (by rw [hp]))
  rw [h] at e
  obtain ⟨rfl, rfl⟩ : s' = ⟨⟨s.package.importPath, q⟩, s.name⟩ ∧ j = k := by simpa using e
  rw [if_neg hown] at hr
  have hq : q = s.package.name := by
    obtain ⟨n, -, h1, -, h2⟩ := C04_first_free_candidate hi (n := s.package.name) hown hnew
    rw [hr, if_neg hname] at h1
    rw [if_neg hname] at h2
    cases n with
    | zero => exact List.append_cancel_right (Outcome.ok.inj h1)
    | succ n => exact absurd (h2 0 (Nat.succ_pos n)) hfree
  subst hq
  have hspec := C07_alias_iff_different hi hown hnew (n := s.package.name) (by rw [hr]) []
  rw [hr, if_pos rfl] at hspec
  refine ⟨rfl, hspec, fun hm => ?_⟩
  unfold resolveQualifier at hm
  obtain ⟨x, hx, hp⟩ := List.mem_map.1 hm
  simp only [List.mem_filter, decide_eq_true_eq] at hx
  have inv : Inv j := by
    have := (hi.exec (.registerImport s.package.importPath s.package.name)).inv
    simpa only [Call.exec, hr] using this
  obtain ⟨d1, hd1, ha1⟩ := (mem_importSpecs inv x).1 hx.1
  obtain ⟨d2, hd2, ha2⟩ := (mem_importSpecs inv _).1 hspec
  dsimp only at hd2 ha2
  rw [hp, hd2] at hd1
  obtain rfl := Option.some.inj hd1
  have hb := hx.2
  rw [ImportSpec.binds, ha1, ← ha2, if_pos rfl, hp] at hb
  exact halias hb.symm

/-- The real names in the examples. -/
def exFooNames (p : GoString) : GoString := if p = exC then b! "foo1" else b! "foo"

/-- C44 fails for types: the second of two packages foo is foo1 in the first Imports, and in the
second Imports its symbol is written foo1.Baz, too, but the import declaration there has no alias. -/
theorem C44_types_full_fails : ¬ C44_types_full := by
  intro hall
  have h := hall exFooNames exOwn (b! "example.com/d") [.ensureImported exSymA] [] (.named exSymB)
    (.named ⟨⟨exB, b! "foo1"⟩, b! "Baz"⟩) (.named ⟨⟨exB, b! "foo1"⟩, b! "Baz"⟩) _ _
    (by simp only [List.mem_singleton, forall_eq]; unfold Truthful; decide) (by simp) (by decide)
    (by unfold Truthful; decide) rfl rfl
  revert h
  unfold SymbolResolves
  decide

/-- An Imports with a package that is really named foo1. -/
def exFoo1Taken : List Call := [.registerImport exC (b! "foo1")]

/-- by `C44_types_iff_partial`: the name foo1 of the first Imports is another package's in the second, which declares
the import as foo11 -/
example (j : Imports) (h : (ensureTypeImported (.named ⟨⟨exB, b! "foo1"⟩, b! "Baz"⟩)
      ((newImportsFor (b! "example.com/d")).after exFoo1Taken)).2 = j) :
    ∀ x ∈ j.importedPaths, resolveQualifier exFooNames j.importSpecs (j.qualifierOf x) = [x] := by
  subst h
  refine (C44_types_iff_partial (t := .named exSymB) (t' := .named ⟨⟨exB, b! "foo1"⟩, b! "Baz"⟩)
    (t'' := .named ⟨⟨exB, b! "foo11"⟩, b! "Baz"⟩) (i1 := (newImportsFor exOwn).after [.ensureImported exSymA])
    (own2 := b! "example.com/d") (history2 := exFoo1Taken) ⟨_, _, rfl⟩ ?_ rfl rfl rfl).2 ?_
  · simp only [exFoo1Taken, List.mem_singleton, forall_eq]; unfold Truthful; decide
  · decide

/-! What C44_types_partial is about: another Imports that used the name foo for the package. -/

example : (prefixFor exB (ensureTypeImported (.named exSymB) (newImportsFor exOwn)).2).1 =
    .ok (exFooNames exB ++ b! ".") := by decide
example : (ensureTypeImported (.named exSymB) ((newImportsFor (b! "example.com/d")).after [.ensureImported exSymA])).1 =
    .ok (.named ⟨⟨exB, b! "foo1"⟩, b! "Baz"⟩) := rfl
/-! What C44_alias_breaks is about. -/
example : ¬ InUse (newImportsFor exOwn) (b! "foo1") := by
  rw [inUse_iff (inv_new _)]; decide

/-! ## Files -/

/-- C44 in full: two files that share parts (code blocks, type declarations, template data...). After
the first was written, the second can be written, and there, too, all qualifiers stand for the
packages they were meant for. -/
def C44_full : Prop := ∀ (realName : GoString → GoString) (env : Env) (fuel : Nat) (p q : Ptr)
  (h h' h'' : Heap) (f g g' : GoFile) (text text' : GoString), NoSpecData h → p ≠ q →
  h.files p = some f → h.files q = some g → TruthfulInput realName h f → TruthfulInput realName h g →
  renderFile env fuel p h = (.ok text, h') → renderFile env fuel q h' = (.ok text', h'') →
  h''.files q = some g' → ∀ e ∈ g'.elements, ∀ pk, Written h'' e pk → ResolvesIn realName g' pk

theorem renderFile_other_files {env fuel p q h h' text} (hne : q ≠ p)
    (hr : renderFile env fuel p h = (.ok text, h')) : h'.files q = h.files q := by
  have hx := qualifyFile_of_renderFile hr
  rw [qualifyFile] at hx
  cases hf : h.files p with
  | none => simp [hf] at hx
  | some f =>
    simp only [hf] at hx
    rcases hq : QM.forEach (FileElem.qualify fuel) f.elements h f.imports with ⟨o, h1, i1⟩
    rw [hq] at hx
    simp only [Prod.mk.injEq] at hx
    obtain ⟨-, rfl⟩ := hx
    have hfiles := (steps_fileElems fuel f.elements h f.imports).files
    rw [hq] at hfiles
    show upd h1.files p _ q = _
    rw [upd_ne _ _ hne, show h1.files = h.files from hfiles]

/-- C44 for files, if the names that the first one uses for packages are their own names, except for
packages that the second one imported before. What is missing: after the first file was written, its
aliases are in the shared parts and are taken for the packages' names (`C44_full_fails`). -/
theorem C44_files_partial {realName : GoString → GoString} {env : Env} {fuel : Nat} {p q : Ptr}
    {h h' h'' : Heap} {f' g g' : GoFile} {text text' : GoString} (hn : NoSpecData h) (hne : p ≠ q)
    (hg : h.files q = some g) (htg : TruthfulInput realName h g)
    (hr : renderFile env fuel p h = (.ok text, h')) (hf' : h'.files p = some f')
    (halias : ∀ x ∈ f'.imports.importedPaths, f'.imports.qualifierOf x = realName x ∨
      x = g.imports.pkgPath ∨ x ∈ g.imports.importedPaths)
    (hr' : renderFile env fuel q h' = (.ok text', h'')) (hg' : h''.files q = some g') :
    g'.elements = g.elements ∧
    ∀ e ∈ g'.elements, ∀ pk, Written h'' e pk → ResolvesIn realName g' pk := by
  obtain ⟨f, f1, h1, h2, h3, h4, h5⟩ := qualifyFile_settled (qualifyFile_of_renderFile hr)
  rw [hf'] at h2
  obtain rfl := Option.some.inj h2
  refine C30_qualifiers_resolve_partial (.inl (h5.noSpecData hn))
    ((renderFile_other_files hne.symm hr).trans hg) ⟨htg.history, fun pk hm => ?_⟩ hr' hg'
  rcases h5.sourced hn hm with hm | rfl | ⟨ho, hm⟩ | ⟨ho, d, hd, hm⟩
  · exact htg.mentioned pk hm
  · exact .inl rfl
  · exact .inl hm
  · refine (halias pk.importPath ((mem_importPaths _ _).2 (by rw [hd]; simp))).elim (fun h => ?_) (.inr ∘ .inr)
    refine .inr (.inl ?_)
    rw [← h, Imports.qualifierOf, if_neg ho, hd]
    exact hm.symm

/-- C44 for files, exactly: in the second file the names of all imports stand for them, unless it imports a package
without alias under a name that the first file made up for it. -/
theorem C44_files_iff_partial {realName : GoString → GoString} {env : Env} {fuel : Nat} {p q : Ptr}
    {h h' h'' : Heap} {f' g g' : GoFile} {text text' : GoString} (hn : NoSpecData h) (hne : p ≠ q)
    (hg : h.files q = some g) (htg : TruthfulInput realName h g)
    (hr : renderFile env fuel p h = (.ok text, h')) (hf' : h'.files p = some f')
    (hr' : renderFile env fuel q h' = (.ok text', h'')) (hg' : h''.files q = some g') :
    (∀ x ∈ g'.imports.importedPaths,
      resolveQualifier realName g'.imports.importSpecs (g'.imports.qualifierOf x) = [x]) ↔
    ¬ ∃ x ∈ f'.imports.importedPaths, f'.imports.qualifierOf x ≠ realName x ∧
      g'.imports.qualifierOf x = f'.imports.qualifierOf x ∧ ⟨[], x⟩ ∈ g'.imports.importSpecs := by
  obtain ⟨f, f1, -, h2, -, -, h5⟩ := qualifyFile_settled (qualifyFile_of_renderFile hr)
  rw [hf'] at h2
  obtain rfl := Option.some.inj h2
  obtain ⟨g0, g1, h6, h7, -, -, h8⟩ := qualifyFile_settled (qualifyFile_of_renderFile hr')
  rw [(renderFile_other_files hne.symm hr).trans hg] at h6
  rw [hg'] at h7
  obtain rfl := Option.some.inj h6
  obtain rfl := Option.some.inj h7
  obtain ⟨history, hi, hh⟩ := htg.history
  have inv : Inv g'.imports := h8.inv (by rw [hi]; exact inv_after history)
  have hstate : NameState (fun x n => n = realName x ∨ (x ∈ f'.imports.importedPaths ∧ f'.imports.qualifierOf x = n))
      (NoSpecData h') h' g.imports := by
    refine ⟨?_, fun pk hm => .inl ?_⟩
    · rw [hi]
      refine (evolves_after history _).namesBy ?_ (by intro p d hd; simp [newImportsFor] at hd)
      rintro pk ⟨c, hc, hp⟩ -
      exact (hh c hc pk hp).imp id (.inl ∘ .inl)
    · rcases h5.sourced hn hm with hm | rfl | ⟨ho, hm⟩ | ⟨ho, d, hd, hm⟩
      · refine (htg.mentioned pk hm).imp id (Or.imp .inl fun hk => .inr (hk.imp id fun hk => ?_))
        exact (mem_importPaths _ _).1 hk
      · exact .inl rfl
      · exact .inl hm
      · refine .inr (.inl (.inr ⟨(mem_importPaths _ _).2 (by rw [hd]; simp), ?_⟩))
        rw [Imports.qualifierOf, if_neg ho, hd]
        exact hm
  have hnames := (h8.names hstate (.inl (h5.noSpecData hn))).names
  exact names_resolve_iff inv hnames

/-- C44: then whatever is written in the second file resolves. -/
theorem C44_files_resolve_partial {realName : GoString → GoString} {env : Env} {fuel : Nat} {p q : Ptr}
    {h h' h'' : Heap} {f' g g' : GoFile} {text text' : GoString} (hn : NoSpecData h) (hne : p ≠ q)
    (hg : h.files q = some g) (htg : TruthfulInput realName h g)
    (hr : renderFile env fuel p h = (.ok text, h')) (hf' : h'.files p = some f')
    (hr' : renderFile env fuel q h' = (.ok text', h'')) (hg' : h''.files q = some g')
    (hno : ¬ ∃ x ∈ f'.imports.importedPaths, f'.imports.qualifierOf x ≠ realName x ∧
      g'.imports.qualifierOf x = f'.imports.qualifierOf x ∧ ⟨[], x⟩ ∈ g'.imports.importSpecs) :
    ∀ e ∈ g'.elements, ∀ pk, Written h'' e pk → ResolvesIn realName g' pk := by
  have hall := (C44_files_iff_partial hn hne hg htg hr hf' hr' hg').2 hno
  obtain ⟨g0, g1, h6, h7, -, h4, h8⟩ := qualifyFile_settled (qualifyFile_of_renderFile hr')
  rw [(renderFile_other_files hne.symm hr).trans hg] at h6
  rw [hg'] at h7
  obtain rfl := Option.some.inj h6
  obtain rfl := Option.some.inj h7
  obtain ⟨history, hi, hh⟩ := htg.history
  have inv : Inv g'.imports := h8.inv (by rw [hi]; exact inv_after history)
  intro e he pk hw
  rcases (h4 e he).written hw with hq | hq
  · exact .inl hq
  · refine NamedIn.resolves inv ((trueNames_iff inv).2 fun x d hd => ?_) hq
    have := hall x ((mem_importPaths _ _).2 (by rw [hd]; simp))
    rwa [qualifierOf_of_get inv hd] at this

/-- Two files, x/p and x/q, with functions that share a line of code: it mentions the packages
x/a/foo and x/b/foo, both named foo. -/
def exShared : Heap where
  files p := if p = 0 then some { name := b! "p.go", packageName := b! "p", imports := newImportsFor (b! "x/p")
                                  elements := [.func 2] }
    else if p = 1 then some { name := b! "q.go", packageName := b! "q", imports := newImportsFor (b! "x/q")
                              elements := [.func 3] }
    else none
  funcs p := if p = 2 then some { name := b! "F", parent := some 0, code := [.line (b! "%s, %s\n") 4] }
    else if p = 3 then some { name := b! "G", parent := some 1, code := [.line (b! "%s, %s\n") 4] }
    else none
  args p := if p = 4 then some [.symbol ⟨⟨b! "x/a/foo", b! "foo"⟩, b! "A"⟩, .symbol ⟨⟨b! "x/b/foo", b! "foo"⟩, b! "B"⟩] else none

/-- The names of the packages. -/
def exSharedNames (path : GoString) : GoString :=
  if path = b! "x/p" then b! "p" else if path = b! "x/q" then b! "q" else b! "foo"

theorem exShared_mentioned {pk : Package} (hm : Mentioned exShared pk) :
    pk.name = exSharedNames pk.importPath := by
  cases hm with
  | file h =>
    simp only [exShared] at h
    split at h
    · cases h; decide
    · split at h
      · cases h; decide
      · simp at h
  | value h => simp [exShared] at h
  | type h => simp [exShared] at h
  | field h => simp [exShared] at h
  | embed h => simp [exShared] at h
  | method h => simp [exShared] at h
  | func h h2 =>
    simp only [exShared] at h
    split at h
    · cases h; revert h2; simp [Signature.symbols, symbolsArgs]
    · split at h
      · cases h; revert h2; simp [Signature.symbols, symbolsArgs]
      · simp at h
  | arg h h2 h3 =>
    simp only [exShared] at h
    split at h
    · cases h
      simp only [List.mem_cons, List.not_mem_nil, or_false] at h2
      rcases h2 with rfl | rfl <;>
      · simp only [Arg.packages, List.mem_singleton] at h3
        subst h3
        decide
    · simp at h
  | templ h => simp [exShared] at h

theorem exShared_text : (renderFile exEnv 3 0 exShared).1 = .ok (b! "package p\n\nimport \"x/a/foo\"\nimport foo1 \"x/b/foo\"\n\nfunc F() {\nfoo.A, foo1.B\n}\n") := by
  decide

/-- C44 fails: the second file has foo1.B and imports x/b/foo without that alias. -/
theorem exShared_text2 : (renderFile exEnv 3 1 (renderFile exEnv 3 0 exShared).2).1 =
    .ok (b! "package q\n\nimport \"x/a/foo\"\nimport \"x/b/foo\"\n\nfunc G() {\nfoo.A, foo1.B\n}\n") := by
  decide

theorem C44_full_fails : ¬ C44_full := by
  intro hall
  have htrue : ∀ g : GoFile, (∃ own, g.imports = newImportsFor own) → TruthfulInput exSharedNames exShared g := by
    rintro g ⟨own, hg⟩
    refine ⟨⟨[], by rw [hg]; rfl, by simp⟩, fun pk hm => .inr (.inl (exShared_mentioned hm))⟩
  have h1 := hall exSharedNames exEnv 3 0 1 exShared _ _ _ _ _ _ _ (by intro p t ht; simp [exShared] at ht)
    (by decide) rfl rfl (htrue _ ⟨_, rfl⟩) (htrue _ ⟨_, rfl⟩) (by rw [← exShared_text])
    (by rw [← exShared_text2]) rfl (.func 3) (by decide) ⟨b! "x/b/foo", b! "foo1"⟩
    (.funcCode (x := .line (b! "%s, %s\n") 4) rfl (by decide)
      (.line (a := .symbol ⟨⟨b! "x/b/foo", b! "foo1"⟩, b! "B"⟩) rfl (.tail _ (List.mem_singleton.2 rfl))
        (.ref (.symbol _) (by decide))))
  revert h1
  unfold ResolvesIn
  decide

/-- The same without the second package: now the first file uses no alias. -/
def exSharedOne : Heap :=
  { exShared with args := fun p => if p = 4 then some [.symbol ⟨⟨b! "x/a/foo", b! "foo"⟩, b! "A"⟩, .str (b! "B")] else none }

example : (renderFile exEnv 3 1 (renderFile exEnv 3 0 exSharedOne).2).1 =
    .ok (b! "package q\n\nimport \"x/a/foo\"\n\nfunc G() {\nfoo.A, B\n}\n") := by decide
example : ∀ f', (renderFile exEnv 3 0 exSharedOne).2.files 0 = some f' →
    ∀ x ∈ f'.imports.importedPaths, f'.imports.qualifierOf x = exSharedNames x := by
  intro f' hf'
  obtain rfl := Option.some.inj hf'
  decide

/-- by `C44_files_iff_partial`: x/b/foo is foo1 in the first file, and in the second, where it is imported without alias -/
example : ∀ f' g', (renderFile exEnv 3 0 exShared).2.files 0 = some f' →
    (renderFile exEnv 3 1 (renderFile exEnv 3 0 exShared).2).2.files 1 = some g' →
    ¬ ∀ x ∈ g'.imports.importedPaths,
      resolveQualifier exSharedNames g'.imports.importSpecs (g'.imports.qualifierOf x) = [x] := by
  intro f' g' hf' hg'
  rw [C44_files_iff_partial (env := exEnv) (fuel := 3) (p := 0) (h := exShared) (by intro p t ht; simp [exShared] at ht) (by decide) rfl
    ⟨⟨[], rfl, by simp⟩, fun pk hm => .inr (.inl (exShared_mentioned hm))⟩ (Prod.ext exShared_text rfl) hf'
    (Prod.ext exShared_text2 rfl) hg', not_not]
  obtain rfl := Option.some.inj hf'
  obtain rfl := Option.some.inj hg'
  exact ⟨b! "x/b/foo", by decide, by decide, by decide, by decide⟩

end Gopoet
