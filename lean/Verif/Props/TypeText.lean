import Verif.Proof.TypeText
import Verif.Props.Conversions
import Verif.Props.Render
/-! Property C65: types taken from go/types and reflect are written in a file so that Go reads them as the same types. -/

namespace Gopoet
open Imports

/-! ### Reflection knows no package names -/

/-- How symbols look that come from reflection. -/
def ReflectSymbols (l : List Symbol) : Prop :=
  ∀ s ∈ l, s.package.name = [] ∧ (s.package.importPath ≠ [] ∨ s.name = b! "error")

theorem ReflectSymbols.append {a b : List Symbol} (h1 : ReflectSymbols a) (h2 : ReflectSymbols b) :
    ReflectSymbols (a ++ b) := by
  intro s hs
  rcases List.mem_append.1 hs with hs | hs
  · exact h1 s hs
  · exact h2 s hs

theorem ReflectSymbols.nil : ReflectSymbols [] := fun _ hs => by cases hs

mutual
theorem reflectSymbols_type : ∀ (t : RT) {n : TypeName}, t.wf = true → t.handled = true →
    typeNameForReflectType t = .ok n → ReflectSymbols n.symbols
  | .defined k path nm, n, hw, _, h => by
    rw [typeNameForReflectType] at h
    split at h
    · rename_i hk
      rw [Bool.and_eq_true] at hk
      have : n = .basic k := by
        cases k <;> first | (cases hk.1; done) | exact (Outcome.ok.inj h).symm
      subst this
      rw [TypeName.symbols]; exact .nil
    · rename_i hk
      split at h
      · cases h
        rw [namedType, TypeName.symbols]
        intro s hs
        cases List.mem_singleton.1 hs
        refine ⟨rfl, ?_⟩
        simp only [RT.wf, Bool.and_eq_true, Bool.or_eq_true, bne_iff_ne, ne_eq, beq_iff_eq] at hw hk
        rcases hw.2 with (h1 | h1) | h1
        · exact .inl h1
        · refine .inl fun e => hk ⟨h1.1, e⟩
        · exact .inr h1.2
      · cases h
  | .ptr e, n, hw, hh, h => by
    rw [RT.wf] at hw
    rw [RT.handled] at hh
    rw [typeNameForReflectType] at h
    obtain ⟨e', he, h⟩ := bind_eq_ok h
    cases pointerType_ok h
    rw [TypeName.symbols]
    exact reflectSymbols_type e hw hh he
  | .slice e, n, hw, hh, h => by
    rw [RT.wf] at hw
    rw [RT.handled] at hh
    rw [typeNameForReflectType] at h
    obtain ⟨e', he, h⟩ := bind_eq_ok h
    cases sliceType_ok h
    rw [TypeName.symbols]
    exact reflectSymbols_type e hw hh he
  | .array e k, n, hw, hh, h => by
    rw [RT.wf] at hw
    rw [RT.handled] at hh
    rw [typeNameForReflectType] at h
    obtain ⟨e', he, h⟩ := bind_eq_ok h
    cases arrayType_ok h
    rw [TypeName.symbols]
    exact reflectSymbols_type e hw hh he
  | .chan d e, n, hw, hh, h => by
    rw [RT.wf, Bool.and_eq_true] at hw
    rw [RT.handled] at hh
    rw [typeNameForReflectType] at h
    obtain ⟨e', he, h⟩ := bind_eq_ok h
    obtain ⟨d', rfl⟩ := channelType_ok h
    rw [TypeName.symbols]
    exact reflectSymbols_type e hw.1 hh he
  | .map _ _, n, _, hh, _ => by rw [RT.handled] at hh; cases hh
  | .func s, n, hw, hh, h => by
    rw [RT.wf] at hw
    rw [RT.handled] at hh
    rw [typeNameForReflectType] at h
    obtain ⟨s', hs, h⟩ := bind_eq_ok h
    cases funcTypeFromSig_ok h
    rw [TypeName.symbols]
    exact reflectSymbols_sig s hw hh hs
  | .struct fs, n, hw, hh, h => by
    rw [RT.wf] at hw
    rw [RT.handled] at hh
    rw [typeNameForReflectType] at h
    obtain ⟨fs', hs, h⟩ := bind_eq_ok h
    cases Outcome.ok.inj h
    rw [structType, TypeName.symbols]
    exact reflectSymbols_fields fs hw hh hs
  | .interface ms, n, hw, hh, h => by
    rw [RT.wf] at hw
    rw [RT.handled] at hh
    rw [typeNameForReflectType] at h
    obtain ⟨ms', hs, h⟩ := bind_eq_ok h
    cases Outcome.ok.inj h
    rw [interfaceType, TypeName.symbols]
    exact reflectSymbols_methods ms hw hh hs
theorem reflectSymbols_sig : ∀ (s : RTSig) {n : Signature}, s.wf = true → s.handled = true →
    signatureFromReflectType s = .ok n → ReflectSymbols n.symbols
  | .mk ins outs v, n, hw, hh, h => by
    rw [RTSig.wf, Bool.and_eq_true, Bool.and_eq_true] at hw
    rw [RTSig.handled, Bool.and_eq_true] at hh
    cases outs with
    | cons => cases hh.2
    | nil =>
      rw [signatureFromReflectType] at h
      obtain ⟨as, ha, h⟩ := bind_eq_ok h
      rw [storeResults] at h
      cases h
      rw [Signature.symbols]
      refine (reflectSymbols_args ins hw.1.1 hh.1 ha).append ?_
      rw [List.length_nil, List.replicate_zero, symbolsArgs]
      exact .nil
theorem reflectSymbols_args : ∀ (l : List RT) {n : List ArgType}, wfRVars l = true → handledVars l = true →
    argsForReflectType l = .ok n → ReflectSymbols (symbolsArgs n)
  | [], n, _, _, h => by rw [argsForReflectType] at h; cases h; rw [symbolsArgs]; exact .nil
  | t :: l, n, hw, hh, h => by
    rw [wfRVars, Bool.and_eq_true] at hw
    rw [handledVars, Bool.and_eq_true] at hh
    rw [argsForReflectType] at h
    obtain ⟨t', h1, h⟩ := bind_eq_ok h
    obtain ⟨l', h2, h⟩ := bind_eq_ok h
    cases Outcome.ok.inj h
    rw [symbolsArgs]
    exact (reflectSymbols_type t hw.1 hh.1 h1).append (reflectSymbols_args l hw.2 hh.2 h2)
theorem reflectSymbols_fields : ∀ (l : List RTField) {n : List FieldType}, wfRFields l = true → handledFields l = true →
    fieldsForReflectType l = .ok n → ReflectSymbols (symbolsFields n)
  | [], n, _, _, h => by rw [fieldsForReflectType] at h; cases h; rw [symbolsFields]; exact .nil
  | .mk nm a t g :: l, n, hw, hh, h => by
    rw [wfRFields, Bool.and_eq_true, Bool.and_eq_true] at hw
    rw [handledFields, Bool.and_eq_true, Bool.and_eq_true] at hh
    rw [fieldsForReflectType] at h
    obtain ⟨t', h1, h⟩ := bind_eq_ok h
    obtain ⟨l', h2, h⟩ := bind_eq_ok h
    cases Outcome.ok.inj h
    rw [symbolsFields]
    exact (reflectSymbols_type t hw.1.2 hh.1.2 h1).append (reflectSymbols_fields l hw.2 hh.2 h2)
theorem reflectSymbols_methods : ∀ (l : List RTMethod) {n : List MethodType}, wfRMethods l = true →
    handledMethods l = true → methodsForReflectType l = .ok n → ReflectSymbols (symbolsMethods n)
  | [], n, _, _, h => by rw [methodsForReflectType] at h; cases h; rw [symbolsMethods]; exact .nil
  | .mk nm s :: l, n, hw, hh, h => by
    rw [wfRMethods, Bool.and_eq_true] at hw
    rw [handledMethods, Bool.and_eq_true] at hh
    rw [methodsForReflectType] at h
    obtain ⟨t', h1, h⟩ := bind_eq_ok h
    obtain ⟨l', h2, h⟩ := bind_eq_ok h
    cases Outcome.ok.inj h
    rw [symbolsMethods]
    exact (reflectSymbols_sig s hw.1 hh.1 h1).append (reflectSymbols_methods l hw.2 hh.2 h2)
end

/-! ### Any type name -/

theorem ident_name (s : Symbol) : (Symbol.ident s).name = s.name := by
  rw [Symbol.ident]; split <;> rfl

/-- Import names are identifiers if the real names are, and the last path elements of packages without name. -/
theorem imports_are_identifiers {own : GoString} {realName : GoString → GoString} {history : List Call}
    (htruth : ∀ c ∈ history, Truthful realName c.packages)
    (hunknown : ∀ c ∈ history, ∀ p ∈ c.packages, p.name = [] → isIdent (pathBase p.importPath) = true)
    (hreal : ∀ p, isIdent (realName p) = true) :
    ∀ s ∈ ((newImportsFor own).after history).importSpecs, isIdent (s.binds realName) = true := by
  intro s hs
  obtain ⟨d, hd, ha⟩ := (mem_importSpecs (inv_after history) s).1 hs
  obtain ⟨pkg, n, ⟨c, hc, hpc⟩, hpath, hname, halias⟩ :=
    (evolves_after history (newImportsFor own)).entries _ _ hd
  rw [ImportSpec.binds]
  split
  · exact hreal _
  · rename_i hne
    rw [ha] at hne ⊢
    cases hal : d.isAlias with
    | false => rw [hal] at hne; simp at hne
    | true =>
      simp only [if_true]
      rw [hname]
      refine isIdent_candidate ?_ n
      rw [Imports.baseName]
      split
      · rename_i h0
        exact hunknown c hc pkg hpc h0
      · rename_i h0
        rcases htruth c hc pkg hpc with h | h
        · exact absurd h h0
        · rw [h]; exact hreal _

theorem preferred_kind {k : ReflectKind} (h : k.isBasic = true) : ∃ n, kindIdent k = .builtin n ∧ preferredName n = predeclared k := by
  cases k <;> first | (simp [ReflectKind.isBasic] at h; done) | exact ⟨_, rfl, by decide⟩

theorem predeclared_mem {k : ReflectKind} (h : k.isBasic = true) : predeclared k ∈ universeBlock.map (·.1) := by
  cases k <;> first | (simp [ReflectKind.isBasic] at h; done) | decide

/-- The conditions on what a file shows can be read off the Go type. -/
theorem shows_iff {sc : FileScope} {t : TypeName} (hv : t.valid = true)
    (hsym : ∀ s ∈ t.symbols, s.package.importPath ≠ [] ∨ s = ⟨⟨[], []⟩, b! "error"⟩)
    (hdecl : ∀ x ∈ universeBlock.map (·.1), x ∉ sc.decls) :
    sc.BareNamesVisible t ↔ sc.Shows (t.meaning Symbol.ident) := by
  constructor
  · intro h x hx
    rcases (refs_type _ _ t hv).1 hx with ⟨s, hs, rfl⟩ | ⟨k, hk, rfl⟩
    · rw [Symbol.ident]
      rcases hsym s hs with hp | rfl
      · rw [if_neg hp]
        intro ho
        exact ⟨h.own s hs (by intro e; rw [e] at hp; exact hp rfl) ho, h.unshadowed s hs (.inr ho)⟩
      · exact h.unshadowed _ hs (.inl rfl)
    · obtain ⟨n, h1, h2⟩ := preferred_kind (basics_valid hv k hk)
      rw [h1]
      dsimp only
      rw [h2]
      exact h.basicsUnshadowed k hk
  · intro h
    have hs' : ∀ s ∈ t.symbols, s.package.importPath ≠ [] →
        (s.package.importPath = sc.own → s.name ∈ sc.decls ∧ ∀ p ∈ sc.imports, p.binds sc.realName ≠ s.name) := by
      intro s hs hp
      have := h _ ((refs_type Symbol.ident _ t hv).2 (.inl ⟨s, hs, rfl⟩))
      rw [Symbol.ident, if_neg hp] at this
      exact this
    have he : (⟨⟨[], []⟩, b! "error"⟩ : Symbol) ∈ t.symbols → ∀ p ∈ sc.imports, p.binds sc.realName ≠ b! "error" := by
      intro hs
      exact h _ ((refs_type Symbol.ident (.builtin (b! "error")) t hv).2 (.inl ⟨_, hs, rfl⟩))
    have hk : ∀ k ∈ t.basics, ∀ p ∈ sc.imports, p.binds sc.realName ≠ predeclared k := by
      intro k hk
      have := h _ ((refs_type Symbol.ident _ t hv).2 (.inr ⟨k, hk, rfl⟩))
      obtain ⟨n, h1, h2⟩ := preferred_kind (basics_valid hv k hk)
      rw [h1] at this
      dsimp only at this
      rw [h2] at this
      exact this
    refine ⟨?_, ?_, ?_, ?_, hk⟩
    · intro s hs hp ho
      rcases hsym s hs with h1 | rfl
      · exact (hs' s hs h1 ho).1
      · exact absurd rfl hp
    · intro s hs hp
      rcases hsym s hs with h1 | rfl
      · rw [hp] at h1; exact absurd rfl h1
      · rw [FileScope.lookup, if_neg (hdecl _ (by decide))]
        decide
    · intro k hk
      exact hdecl _ (predeclared_mem (basics_valid hv k hk))
    · intro s hs hp
      rcases hsym s hs with h1 | rfl
      · rcases hp with hp | hp
        · rw [hp] at h1; exact absurd rfl h1
        · exact (hs' s hs h1 hp).2
      · exact he hs

theorem text_means (tbl : Nat → Bool) {own : GoString} {realName : GoString → GoString}
    {decls : List GoString} {before later : List Call} {t : TypeName}
    (htruth : ∀ c ∈ before ++ .ensureTypeImported t :: later, Truthful realName c.packages)
    (hunknown : ∀ c ∈ before ++ .ensureTypeImported t :: later, ∀ p ∈ c.packages, p.name = [] →
      isIdent (pathBase p.importPath) = true)
    (hreal : ∀ p, isIdent (realName p) = true)
    (hv : t.valid = true) (hproper : (t.meaning Symbol.ident).isProper = true)
    (hsym : ∀ s ∈ t.symbols, s.package.importPath ≠ [] ∨ s = ⟨⟨[], []⟩, b! "error"⟩)
    (hdecl : ∀ x ∈ universeBlock.map (·.1), x ∉ decls) :
    ∃ t' j s, ensureTypeImported t ((newImportsFor own).after before) = (.ok t', j) ∧ t'.string tbl = .ok s ∧
      (((j.after later).scope decls realName).typeMeaning s = some (t.meaning Symbol.ident) ↔
        (t.meaning Symbol.ident).isAwkward = false ∧
          ((j.after later).scope decls realName).Shows (t.meaning Symbol.ident)) := by
  obtain ⟨j, hj, -, -⟩ := ensureTypeImported_eq (i := (newImportsFor own).after before) hv
  have hfinal : j.after later = (newImportsFor own).after (before ++ .ensureTypeImported t :: later) := by
    simp only [Imports.after, List.foldl_append, List.foldl_cons, Call.exec]
    congr 1
    have : j = (ensureTypeImported t ((newImportsFor own).after before)).2 := by rw [hj]
    rw [this]; rfl
  have hident : ∀ p ∈ (j.after later).importSpecs, isIdent (p.binds realName) = true := by
    rw [hfinal]
    exact imports_are_identifiers htruth hunknown hreal
  have hn : NamesKept Symbol.ident t.symbols := by
    intro s hs
    refine ⟨ident_name s, ?_⟩
    rcases hsym s hs with hp | rfl
    · have := htruth (.ensureTypeImported t) (by simp) s.package (by
        rw [Call.packages, packagesOf, List.mem_filter]
        refine ⟨List.mem_map.2 ⟨s, hs, rfl⟩, decide_eq_true fun e => ?_⟩
        rw [e] at hp
        exact hp rfl)
      rcases this with h | h
      · exact .inl h
      · rw [h]; exact .inr (hreal _)
    · exact .inl rfl
  obtain ⟨s, h1, h2⟩ := C18_qualified_text_means_type_iff tbl (decls := decls) htruth hv (proper_type _ t hv hn hproper) hj hident
  refine ⟨_, j, s, hj, h1, ?_⟩
  have hm : t.meaning ((j.after later).scope decls realName).symbolMeaning = t.meaning Symbol.ident := by
    refine meaning_congr t fun s hs => ?_
    rcases hsym s hs with hp | rfl
    · rw [FileScope.symbolMeaning, if_neg (by intro e; rw [e] at hp; exact hp rfl), Symbol.ident, if_neg hp]
    · have hd : b! "error" ∉ decls := hdecl _ (by decide)
      simp only [FileScope.symbolMeaning, FileScope.lookup, Imports.scope, Symbol.ident, hd, if_true, if_false]
      rfl
  rw [hm] at h2
  rw [h2, shows_iff hv hsym hdecl, awkward_type _ t hv, Bool.not_eq_false']

/-! ### The property -/

/-- What C65 says of a Go type `d` that a conversion gave the result `r` for: after any calls on the Imports of a file, the
type is qualified and written as a text which means `d` in the file, also if more is imported later. -/
def WrittenAs (tbl : Nat → Bool) (own : GoString) (realName : GoString → GoString) (decls : List GoString)
    (before later : List Call) (r : Outcome TypeName) (d : GoType TypeIdent) : Prop :=
  ∃ t t' j s, r = .ok t ∧ ensureTypeImported t ((newImportsFor own).after before) = (.ok t', j) ∧ t'.string tbl = .ok s ∧
    ((j.after later).scope decls realName).typeMeaning s = some d

/-- C65 in full, for types from go/types. The names of the packages are those that the packages have, nobody declares a
predeclared name, and the types of the own package are declared. -/
def C65_full : Prop := ∀ (tbl : Nat → Bool) (own : GoString) (realName : GoString → GoString) (decls : List GoString)
  (before later : List Call) (t : GT) (d : GoType TypeIdent), t.wf = true → t.denotes = some d → d.isProper = true →
  (∀ n ∈ t.names, ∃ p, n.pkg = some p ∧ p.path ≠ [] ∧ p.name = realName p.path) →
  (∀ c ∈ before ++ later, ∀ p ∈ c.packages, p.name = realName p.importPath) → (∀ p, isIdent (realName p) = true) →
  (∀ x ∈ universeBlock.map (·.1), x ∉ decls) → (∀ n, .declared own n ∈ d.typeRefs → n ∈ decls) →
  WrittenAs tbl own realName decls before later (typeNameForGoType t) d

/-- C65, exactly: a type from go/types is written as itself if and only if it has none of the two forms that are written
wrongly (C17), and no import of the file takes one of the bare names in it. -/
theorem C65_gotypes_iff_partial (tbl : Nat → Bool) {own : GoString} {realName : GoString → GoString} {decls : List GoString}
    {before later : List Call} {t : GT} {d : GoType TypeIdent} (hw : t.wf = true) (hd : t.denotes = some d)
    (hproper : d.isProper = true)
    (hpk : ∀ n ∈ t.names, ∃ p, n.pkg = some p ∧ p.path ≠ [] ∧ p.name = realName p.path)
    (hcalls : ∀ c ∈ before ++ later, Truthful realName c.packages)
    (hunknown : ∀ c ∈ before ++ later, ∀ p ∈ c.packages, p.name = [] → isIdent (pathBase p.importPath) = true)
    (hreal : ∀ p, isIdent (realName p) = true) (hdecl : ∀ x ∈ universeBlock.map (·.1), x ∉ decls) :
    ∃ n n' j, typeNameForGoType t = .ok n ∧ ensureTypeImported n ((newImportsFor own).after before) = (.ok n', j) ∧
      (WrittenAs tbl own realName decls before later (typeNameForGoType t) d ↔
        d.isAwkward = false ∧ ((j.after later).scope decls realName).Shows d) := by
  rcases conv_type t hw (fun n hn => let ⟨p, h1, h2, _⟩ := hpk n hn; ⟨p, h1, h2⟩) with ⟨n, h1, h2, h3, h4⟩ | ⟨-, h⟩
  swap
  · rw [hd] at h; cases h
  rw [hd] at h3
  cases h3
  have hsym : ∀ s ∈ n.symbols, s.package.importPath ≠ [] ∧ s.package.name = realName s.package.importPath := by
    intro s hs
    rw [h4] at hs
    obtain ⟨x, hx, rfl⟩ := List.mem_map.1 hs
    obtain ⟨p, g1, g2, g3⟩ := hpk x hx
    simp only [TypesName.toSymbol, g1]
    exact ⟨g2, g3⟩
  have hcall : ∀ p ∈ (Call.ensureTypeImported n).packages, p.name = realName p.importPath := by
    intro p hp
    rw [Call.packages, packagesOf, List.mem_filter] at hp
    obtain ⟨s, hs, rfl⟩ := List.mem_map.1 hp.1
    exact (hsym s hs).2
  have hne : ∀ p, realName p ≠ [] := by
    intro p e
    have := hreal p
    rw [e] at this
    cases this
  obtain ⟨n', j, s, g1, g2, g3⟩ := text_means tbl (own := own) (realName := realName) (decls := decls) (before := before)
    (later := later) (t := n)
    (by
      intro c hc
      rcases List.mem_append.1 hc with hc | hc
      · exact hcalls c (List.mem_append_left _ hc)
      · rcases List.mem_cons.1 hc with rfl | hc
        · exact fun p hp => .inr (hcall p hp)
        · exact hcalls c (List.mem_append_right _ hc))
    (by
      intro c hc
      rcases List.mem_append.1 hc with hc | hc
      · exact hunknown c (List.mem_append_left _ hc)
      · rcases List.mem_cons.1 hc with rfl | hc
        · intro p hp e
          exact absurd ((hcall p hp).symm.trans e) (hne _)
        · exact hunknown c (List.mem_append_right _ hc))
    hreal h2 hproper (fun s hs => .inl (hsym s hs).1) hdecl
  refine ⟨n, n', j, h1, g1, ?_⟩
  rw [← g3, WrittenAs]
  constructor
  · rintro ⟨t1, t2, j1, s1, k1, k2, k3, k4⟩
    rw [h1] at k1
    cases k1
    rw [g1] at k2
    cases k2
    rw [g2] at k3
    cases k3
    exact k4
  · exact fun h => ⟨n, n', j, s, h1, g1, g2, h⟩

/-- C65, exactly, for types from reflect that are converted correctly (C24). Their packages have no name there: their
paths have to end in an identifier (C64). -/
theorem C65_reflect_iff_partial (tbl : Nat → Bool) {own : GoString} {realName : GoString → GoString} {decls : List GoString}
    {before later : List Call} {t : RT} (hw : t.wf = true) (hh : t.handled = true) (hproper : t.denotes.isProper = true)
    (hpk : ∀ p n, .declared p n ∈ t.denotes.typeRefs → isIdent (pathBase p) = true)
    (hcalls : ∀ c ∈ before ++ later, Truthful realName c.packages)
    (hunknown : ∀ c ∈ before ++ later, ∀ p ∈ c.packages, p.name = [] → isIdent (pathBase p.importPath) = true)
    (hreal : ∀ p, isIdent (realName p) = true) (hdecl : ∀ x ∈ universeBlock.map (·.1), x ∉ decls) :
    ∃ n n' j, typeNameForReflectType t = .ok n ∧ ensureTypeImported n ((newImportsFor own).after before) = (.ok n', j) ∧
      (WrittenAs tbl own realName decls before later (typeNameForReflectType t) t.denotes ↔
        t.denotes.isAwkward = false ∧ ((j.after later).scope decls realName).Shows t.denotes) := by
  obtain ⟨n, h1, h2, h3⟩ := rconv_type t hw hh
  have hsym := reflectSymbols_type t hw hh h1
  rw [← h3] at hpk hproper ⊢
  have hcall : ∀ p ∈ (Call.ensureTypeImported n).packages, p.name = [] ∧ isIdent (pathBase p.importPath) = true := by
    intro p hp
    rw [Call.packages, packagesOf, List.mem_filter] at hp
    obtain ⟨s, hs, rfl⟩ := List.mem_map.1 hp.1
    refine ⟨(hsym s hs).1, hpk _ s.name ?_⟩
    have := (refs_type Symbol.ident _ n h2).2 (.inl ⟨s, hs, rfl⟩)
    rw [Symbol.ident, if_neg] at this
    · exact this
    · intro e
      have hne := of_decide_eq_true hp.2
      exact hne (by
        have := (hsym s hs).1
        revert e this
        generalize s.package = pk
        rintro e this
        cases pk
        cases e
        cases this
        rfl)
  obtain ⟨n', j, s, g1, g2, g3⟩ := text_means tbl (own := own) (realName := realName) (decls := decls) (before := before)
    (later := later) (t := n)
    (by
      intro c hc
      rcases List.mem_append.1 hc with hc | hc
      · exact hcalls c (List.mem_append_left _ hc)
      · rcases List.mem_cons.1 hc with rfl | hc
        · exact fun p hp => .inl (hcall p hp).1
        · exact hcalls c (List.mem_append_right _ hc))
    (by
      intro c hc
      rcases List.mem_append.1 hc with hc | hc
      · exact hunknown c (List.mem_append_left _ hc)
      · rcases List.mem_cons.1 hc with rfl | hc
        · exact fun p hp _ => (hcall p hp).2
        · exact hunknown c (List.mem_append_right _ hc))
    hreal h2 hproper
    (by
      intro s hs
      obtain ⟨k1, k2⟩ := hsym s hs
      by_cases hp : s.package.importPath = []
      · right
        have k2 := k2.resolve_left (fun h => h hp)
        obtain ⟨⟨a, b⟩, c⟩ := s
        cases k1
        cases k2
        cases hp
        rfl
      · exact .inl hp)
    hdecl
  refine ⟨n, n', j, h1, g1, ?_⟩
  rw [← g3, WrittenAs]
  constructor
  · rintro ⟨t1, t2, j1, s1, k1, k2, k3, k4⟩
    rw [h1] at k1
    cases k1
    rw [g1] at k2
    cases k2
    rw [g2] at k3
    cases k3
    exact k4
  · exact fun h => ⟨n, n', j, s, h1, g1, g2, h⟩

/-- C65: a type known to go/types and to reflect is written as the same type, whichever of the two it is taken from. -/
theorem C65_same_type_partial {tbl : Nat → Bool} {own : GoString} {realName : GoString → GoString} {decls : List GoString}
    {before later before' later' : List Call} {t : GT} {u : RT} (h : t.denotes = some u.denotes)
    (ht : ∀ d, t.denotes = some d → WrittenAs tbl own realName decls before later (typeNameForGoType t) d)
    (hu : WrittenAs tbl own realName decls before' later' (typeNameForReflectType u) u.denotes) :
    ∃ n n' i s m m' j s', typeNameForGoType t = .ok n ∧
      ensureTypeImported n ((newImportsFor own).after before) = (.ok n', i) ∧ n'.string tbl = .ok s ∧
      typeNameForReflectType u = .ok m ∧
      ensureTypeImported m ((newImportsFor own).after before') = (.ok m', j) ∧ m'.string tbl = .ok s' ∧
      ((i.after later).scope decls realName).typeMeaning s = ((j.after later').scope decls realName).typeMeaning s' := by
  obtain ⟨n, n', i, s, h1, h2, h3, h4⟩ := ht _ h
  obtain ⟨m, m', j, s', g1, g2, g3, g4⟩ := hu
  exact ⟨n, n', i, s, m, m', j, s', h1, h2, h3, g1, g2, g3, h4.trans g4.symm⟩

/-! ### Examples -/

/-- C65 fails: `chan (<-chan int)` is written as `chan <-chan int`, which is another type. -/
theorem C65_full_fails : ¬ C65_full := by
  intro hall
  let t : GT := .chan .sendRecv (.chan .recvOnly (.basic .int))
  let d : GoType TypeIdent := .chan .both (.chan .recv (.name (.builtin (b! "int"))))
  have h := hall exTable exOwn (fun _ => b! "q") [] [] [] t d (by rfl) (by rfl) (by rfl) (by intro n hn; cases hn)
    (by intro c hc; cases hc) (by intro p; rfl) (by intro x _; simp)
    (by
      intro n hn
      have hr : d.typeRefs = [.builtin (b! "int")] := by rfl
      rw [hr] at hn
      cases List.mem_singleton.1 hn)
  obtain ⟨n, n', j, -, -, hiff⟩ := C65_gotypes_iff_partial exTable (own := exOwn) (realName := fun _ => b! "q") (decls := [])
    (before := []) (later := []) (t := t) (d := d) (by rfl) (by rfl) (by rfl) (by intro n hn; cases hn)
    (by intro c hc; cases hc) (by intro c hc; cases hc) (by intro p; rfl) (by intro x _; simp)
  have := (hiff.1 h).1
  revert this
  decide

/-- `func(w io.Writer, m map[string]*struct{ io.Reader; b chan<- int "tag" }, rest ...x/io.T) (n int, _ p.Own)` -/
def exGT2 : GT :=
  let io := fun n => GT.named ⟨some ⟨b! "io", b! "io"⟩, n⟩
  .signature (.mk .none
    [.mk (b! "w") (io (b! "Writer")),
     .mk (b! "m") (.map (.basic .string) (.pointer (.struct
        [.mk (b! "Reader") true (io (b! "Reader")) [],
         .mk (b! "b") false (.chan .sendOnly (.basic .int)) (b! "tag")]))),
     .mk (b! "rest") (.slice (.named ⟨some ⟨b! "x/io", b! "io"⟩, b! "T"⟩))]
    [.mk (b! "n") (.basic .int), .mk [] (.named ⟨some ⟨exOwn, b! "io"⟩, b! "Own"⟩)] true)

/-- It is written with two imports, one of them under another name, and its own type without. -/
example : (do
    let n ← typeNameForGoType exGT2
    let n' ← (ensureTypeImported n (newImportsFor exOwn)).1
    n'.string exTable) = .ok (b! "func(w io.Writer, m map[string]*struct{io.Reader; b chan<- int `tag`}, rest ...io1.T) (n int, _ Own)") := by
  rfl

/-- The theorem applies to it: the text means the type. -/
example : ∃ d, exGT2.denotes = some d ∧
    WrittenAs exTable exOwn (fun _ => b! "io") [b! "Own"] [] [] (typeNameForGoType exGT2) d := by
  refine ⟨_, rfl, ?_⟩
  obtain ⟨n, n', j, h1, h2, hiff⟩ := C65_gotypes_iff_partial exTable (own := exOwn) (realName := fun _ => b! "io")
    (decls := [b! "Own"]) (before := []) (later := []) (t := exGT2) (by rfl) rfl (by rfl)
    (by
      intro n hn
      have hr : exGT2.names = [⟨some ⟨b! "io", b! "io"⟩, b! "Writer"⟩, ⟨some ⟨b! "io", b! "io"⟩, b! "Reader"⟩,
        ⟨some ⟨b! "x/io", b! "io"⟩, b! "T"⟩, ⟨some ⟨exOwn, b! "io"⟩, b! "Own"⟩] := by rfl
      rw [hr] at hn
      simp only [List.mem_cons, List.not_mem_nil, or_false] at hn
      rcases hn with rfl | rfl | rfl | rfl <;> exact ⟨_, rfl, by decide, rfl⟩)
    (by intro c hc; cases hc) (by intro c hc; cases hc) (by intro p; rfl) (by decide)
  cases h1
  have hj : j = (ensureTypeImported _ ((newImportsFor exOwn).after [])).2 := (congrArg Prod.snd h2).symm
  refine hiff.2 ⟨by rfl, ?_⟩
  rw [hj]
  decide +kernel

/-- So it does to a type from reflect, in a file in which the name `io` is taken. -/
example : WrittenAs exTable exOwn (fun _ => b! "io") [] [.registerImport (b! "x/io") (b! "io")] []
    (typeNameForReflectType exRT) exRT.denotes := by
  obtain ⟨n, n', j, h1, h2, hiff⟩ := C65_reflect_iff_partial exTable (own := exOwn) (realName := fun _ => b! "io")
    (decls := []) (before := [.registerImport (b! "x/io") (b! "io")]) (later := []) (t := exRT) (by rfl) (by rfl) (by rfl)
    (by
      intro p n hn
      have hr : exRT.denotes.typeRefs = [.builtin (b! "uint8"), .declared (b! "io") (b! "Writer"), .builtin (b! "error")] := by
        rfl
      rw [hr] at hn
      simp only [List.mem_cons, List.not_mem_nil, or_false, reduceCtorEq, false_or] at hn
      cases hn
      decide)
    (by intro c hc; cases List.mem_singleton.1 hc; intro p hp; cases List.mem_singleton.1 hp; exact .inr rfl)
    (by intro c hc; cases List.mem_singleton.1 hc; intro p hp; cases List.mem_singleton.1 hp; intro h; cases h)
    (by intro p; rfl) (by intro x _; simp)
  cases h1
  have hj : j = (ensureTypeImported _ ((newImportsFor exOwn).after [.registerImport (b! "x/io") (b! "io")])).2 :=
    (congrArg Prod.snd h2).symm
  refine hiff.2 ⟨by rfl, ?_⟩
  rw [hj]
  decide +kernel

example : (do
    let n ← typeNameForReflectType exRT
    let n' ← (ensureTypeImported n ((newImportsFor exOwn).after [.registerImport (b! "x/io") (b! "io")])).1
    n'.string exTable) = .ok (b! "struct{F func([]byte, ...*io1.Writer) `tag`; e [3]<-chan error}") := by
  rfl

end Gopoet
