import Verif.Proof.TruthLemmas
import Verif.Props.TemplateText
import Verif.Props.Render
import Verif.Props.TypeText
import Verif.Spec.RefMeaning
/-! Property C66: what is written for a reference refers, in Go, to what the reference stands for. -/

namespace Gopoet
open Imports

theorem splitDots_ne_nil (s : GoString) : splitDots s ≠ [] := by
  cases s with
  | nil => rw [splitDots]; exact List.cons_ne_nil _ _
  | cons c s =>
    rw [splitDots]
    split
    · exact List.cons_ne_nil _ _
    · split <;> exact List.cons_ne_nil _ _

theorem isIdent_noDot {w : GoString} (h : isIdent w = true) : ∀ c ∈ w, c ≠ dot := by
  simp only [isIdent, Bool.and_eq_true] at h
  intro c hc e
  have := List.all_eq_true.1 h.1.2 c hc
  rw [e] at this
  revert this
  decide

theorem splitDots_word : ∀ {w : GoString}, (∀ c ∈ w, c ≠ dot) → splitDots w = [w]
  | [], _ => rfl
  | c :: w, h => by
    rw [splitDots, if_neg (h c List.mem_cons_self), splitDots_word fun x hx => h x (List.mem_cons_of_mem _ hx)]

theorem splitDots_append : ∀ {w : GoString}, (∀ c ∈ w, c ≠ dot) → ∀ s, splitDots (w ++ dot :: s) = w :: splitDots s
  | [], _, s => by rw [List.nil_append, splitDots, if_pos rfl]
  | c :: w, h, s => by
    rw [List.cons_append, splitDots, if_neg (h c List.mem_cons_self),
      splitDots_append fun x hx => h x (List.mem_cons_of_mem _ hx)]

theorem splitDots_one {a : GoString} (ha : isIdent a = true) : splitDots a = [a] := splitDots_word (isIdent_noDot ha)

theorem splitDots_two {a b : GoString} (ha : isIdent a = true) (hb : isIdent b = true) :
    splitDots (a ++ b! "." ++ b) = [a, b] := by
  rw [List.append_assoc]
  exact (splitDots_append (isIdent_noDot ha) b).trans (by rw [splitDots_one hb])

theorem splitDots_three {a b c : GoString} (ha : isIdent a = true) (hb : isIdent b = true) (hc : isIdent c = true) :
    splitDots (a ++ b! "." ++ b ++ b! "." ++ c) = [a, b, c] := by
  rw [List.append_assoc, List.append_assoc, List.append_assoc]
  refine (splitDots_append (isIdent_noDot ha) _).trans (congrArg (a :: ·) ?_)
  have := splitDots_two hb hc
  rw [List.append_assoc] at this
  exact this

theorem resolveQualifier_nil {realName : GoString → GoString} {specs : List ImportSpec} {q : GoString} :
    resolveQualifier realName specs q = [] ↔ ∀ p ∈ specs, p.binds realName ≠ q := by
  rw [resolveQualifier, List.map_eq_nil_iff, List.filter_eq_nil_iff]
  simp

/-! ### Symbols -/

/-- How a symbol is written whose package is imported. -/
theorem writtenSymbol_cases {realName : GoString → GoString} {k : Imports} (inv : Inv k) (htn : TrueNames realName k)
    {s : Symbol} (hm : ∀ p ∈ packagesOf [s], HasName k p) :
    (s.package = ⟨[], []⟩ ∨ s.package.importPath = k.pkgPath) ∧ writtenSymbol k s = s.name ∨
    s.package ≠ ⟨[], []⟩ ∧ s.package.importPath ≠ k.pkgPath ∧ ∃ q, writtenSymbol k s = q ++ b! "." ++ s.name ∧
      resolveQualifier realName k.importSpecs q = [s.package.importPath] := by
  by_cases hb : s.package = ⟨[], []⟩
  · exact .inl ⟨.inl hb, by rw [writtenSymbol, if_pos hb]⟩
  · by_cases ho : s.package.importPath = k.pkgPath
    · exact .inl ⟨.inr ho, by rw [writtenSymbol, if_neg hb, prefixOf_own ho]; rfl⟩
    · rcases hm s.package (by simp [packagesOf, hb]) with h | h
      · exact absurd h ho
      · cases hd : k.importsByPath.get s.package.importPath with
        | none => exact absurd hd h
        | some d =>
          refine .inr ⟨hb, ho, d.packageName, ?_, resolve_of_trueNames inv htn hd⟩
          rw [writtenSymbol, if_neg hb, prefixOf_known ho hd]

theorem isIdent_of_resolves {realName : GoString → GoString} {specs : List ImportSpec} {q p : GoString}
    (hident : ∀ p ∈ specs, isIdent (p.binds realName) = true) (h : resolveQualifier realName specs q = [p]) :
    isIdent q = true := by
  have : p ∈ resolveQualifier realName specs q := by rw [h]; simp
  simp only [resolveQualifier, List.mem_map, List.mem_filter, decide_eq_true_eq] at this
  obtain ⟨x, ⟨hx, hb⟩, -⟩ := this
  rw [← hb]; exact hident x hx

/-- A bare name refers to what is meant if it is not hidden. -/
theorem bare_iff {sc : FileScope} {s : Symbol} (h : s.package = ⟨[], []⟩ ∨ s.package.importPath = sc.own) :
    (∃ e, sc.intended s = some e ∧ resolveQualifier sc.realName sc.imports s.name = [] ∧ sc.entityNamed s.name = some e) ↔
      sc.Reaches s := by
  constructor
  · rintro ⟨e, h1, h2, h3⟩
    refine ⟨fun hb ho => ?_, fun hb => ?_, fun _ => resolveQualifier_nil.1 h2⟩
    · rw [FileScope.intended, if_neg hb] at h1
      cases h1
      rw [FileScope.entityNamed] at h3
      split at h3
      · assumption
      · split at h3 <;> cases h3
    · rw [FileScope.entityNamed] at h3
      split at h3
      · exact .inl ‹_›
      · split at h3
        · exact .inr ‹_›
        · cases h3
  · rintro ⟨h1, h2, h3⟩
    have h4 := resolveQualifier_nil.2 (h3 h)
    by_cases hb : s.package = ⟨[], []⟩
    · rw [FileScope.intended, if_pos hb]
      have : sc.entityNamed s.name ≠ none := by
        rw [FileScope.entityNamed]
        split
        · simp
        · rcases h2 hb with h | h
          · contradiction
          · rw [if_pos h]; simp
      obtain ⟨e, he⟩ := Option.ne_none_iff_exists'.1 this
      exact ⟨e, he, h4, he⟩
    · have ho := h.resolve_left hb
      refine ⟨.declared sc.own s.name, ?_, h4, ?_⟩
      · rw [FileScope.intended, if_neg hb, ho]
      · rw [FileScope.entityNamed, if_pos (h1 hb ho)]

/-- What must be visible in the file for the reference. -/
def FileScope.Visible (sc : FileScope) : Reference → Prop
  | .package p => p.importPath ≠ sc.own
  | .symbol s => sc.Reaches s
  | .method m => sc.Reaches m.type
  | .type t => t.unproblematic = true ∧ sc.BareNamesVisible t

theorem reaches_other {sc : FileScope} {s : Symbol} (hb : s.package ≠ ⟨[], []⟩) (ho : s.package.importPath ≠ sc.own) :
    sc.Reaches s :=
  ⟨fun _ h => absurd h ho, fun h => absurd h hb, fun h => h.elim (fun h => absurd h hb) fun h => absurd h ho⟩

/-- The text of a reference means it. -/
theorem text_means_iff (tbl : Nat → Bool) {realName : GoString → GoString} {decls : List GoString} {k : Imports}
    {r : Reference} (inv : Inv k) (htn : TrueNames realName k) (hm : ∀ p ∈ r.mentions, HasName k p) (hv : r.valid)
    (hw : r.wellNamed = true) (hident : ∀ p ∈ k.importSpecs, isIdent (p.binds realName) = true) :
    ∃ s, r.text tbl k = .ok s ∧
      ((k.scope decls realName).Means s r ↔ (k.scope decls realName).Visible r) := by
  cases r with
  | package p =>
    refine ⟨_, rfl, ?_⟩
    simp only [FileScope.Means, FileScope.Visible]
    by_cases ho : p.importPath = k.pkgPath
    · rw [prefixOf_own ho]
      refine ⟨fun h => ?_, fun h => absurd ho h⟩
      have : (k.scope decls realName).read (List.dropLast []) = none := by
        rw [FileScope.read, if_neg (by decide)]
      rw [this] at h; cases h
    · rcases hm p (by simp [Reference.mentions]) with h | h
      · exact absurd h ho
      · cases hd : k.importsByPath.get p.importPath with
        | none => exact absurd hd h
        | some d =>
          have hres := resolve_of_trueNames inv htn hd
          have hi := isIdent_of_resolves hident hres
          rw [prefixOf_known ho hd, show (d.packageName ++ b! ".").dropLast = d.packageName by simp]
          refine ⟨fun _ => ho, fun _ => ?_⟩
          rw [FileScope.read, splitDots_one hi, if_pos (by simp [hi])]
          simp only [Imports.scope, hres]
  | symbol s =>
    refine ⟨_, rfl, ?_⟩
    simp only [FileScope.Means, FileScope.Visible]
    rcases writtenSymbol_cases inv htn hm with ⟨h1, h2⟩ | ⟨h1, h2, q, h3, h4⟩
    · rw [h2, ← bare_iff (sc := k.scope decls realName) h1]
      refine exists_congr fun e => and_congr_right fun _ => ?_
      rw [Reference.wellNamed] at hw
      rw [FileScope.read, splitDots_one hw, if_pos (by simp [hw])]
      dsimp only
      generalize resolveQualifier _ _ _ = l
      rcases l with _ | ⟨p, _ | ⟨p', l⟩⟩ <;> simp
    · have hi := isIdent_of_resolves hident h4
      rw [Reference.wellNamed] at hw
      refine ⟨fun _ => reaches_other h1 h2, fun _ => ⟨.declared s.package.importPath s.name, ?_, ?_⟩⟩
      · rw [FileScope.intended, if_neg h1]
      · rw [h3, FileScope.read, splitDots_two hi hw, if_pos (by simp [hi, hw])]
        simp only [Imports.scope, h4]
  | method m =>
    refine ⟨_, rfl, ?_⟩
    simp only [FileScope.Means, FileScope.Visible]
    rw [Reference.wellNamed, Bool.and_eq_true] at hw
    rcases writtenSymbol_cases inv htn hm with ⟨h1, h2⟩ | ⟨h1, h2, q, h3, h4⟩
    · rw [h2, ← bare_iff (sc := k.scope decls realName) h1]
      refine exists_congr fun e => and_congr_right fun _ => ?_
      rw [FileScope.read, splitDots_two hw.1 hw.2, if_pos (by simp [hw.1, hw.2])]
      dsimp only
      generalize resolveQualifier _ _ _ = l
      rcases l with _ | ⟨p, _ | ⟨p', l⟩⟩ <;> simp
    · have hi := isIdent_of_resolves hident h4
      refine ⟨fun _ => reaches_other h1 h2, fun _ => ⟨.declared m.type.package.importPath m.type.name, ?_, ?_⟩⟩
      · rw [FileScope.intended, if_neg h1]
      · rw [h3, FileScope.read, splitDots_three hi hw.1 hw.2, if_pos (by simp [hi, hw.1, hw.2])]
        simp only [Imports.scope, h4]
  | type t =>
    obtain ⟨s, hs, hiff⟩ := imported_text_means_iff tbl (own := k.pkgPath) (decls := decls) rfl
      (fun p d hd _ => resolve_of_trueNames inv htn hd) hv hw
      (fun s hs => covered_of_known fun p hp => hm p (by
        rw [packagesOf, List.mem_filter] at hp
        rw [Reference.mentions, packagesOf, List.mem_filter]
        refine ⟨?_, hp.2⟩
        obtain ⟨x, hx, rfl⟩ := List.mem_map.1 hp.1
        cases List.mem_singleton.1 hx
        exact List.mem_map.2 ⟨_, hs, rfl⟩)) hident
    exact ⟨s, by rw [Reference.text, withPrefix_prefixOf, hs], hiff⟩

/-! ### Histories -/

theorem trueNames_after {realName : GoString → GoString} {own : GoString} {history : List Call}
    (htruth : ∀ c ∈ history, Truthful realName c.packages) : TrueNames realName ((newImportsFor own).after history) := by
  refine (evolves_after history (newImportsFor own)).trueNames (fun pk hpk _ => ?_) ?_
  · obtain ⟨c, hc, hp⟩ := hpk
    exact (htruth c hc pk hp).imp id .inl
  · intro p d hd
    cases hd

/-- The names that are given for packages, in calls and in a reference, are the ones that the packages have, or left
empty if the path ends in an identifier. -/
structure NamesGiven (realName : GoString → GoString) (calls : List Call) (pkgs : List Package) : Prop where
  calls : ∀ c ∈ calls, ∀ p ∈ c.packages,
    p.name = [] ∧ isIdent (pathBase p.importPath) = true ∨ p.name = realName p.importPath
  pkgs : ∀ p ∈ pkgs, p.name = [] ∧ isIdent (pathBase p.importPath) = true ∨ p.name = realName p.importPath
  real : ∀ p, isIdent (realName p) = true

/-- What is known after the packages were registered between other calls. -/
theorem NamesGiven.final {realName : GoString → GoString} {own : GoString} {before later : List Call} {pkgs : List Package}
    (h : NamesGiven realName (before ++ later) pkgs) :
    let k := (((newImportsFor own).after before).after (registerAll pkgs)).after later
    Inv k ∧ TrueNames realName k ∧ (∀ p ∈ k.importSpecs, isIdent (p.binds realName) = true) ∧ ∀ p ∈ pkgs, HasName k p := by
  dsimp only
  have e : (((newImportsFor own).after before).after (registerAll pkgs)).after later =
      (newImportsFor own).after (before ++ registerAll pkgs ++ later) := by
    simp only [Imports.after, List.foldl_append]
  have hc : ∀ c ∈ before ++ registerAll pkgs ++ later, ∀ p ∈ c.packages,
      p.name = [] ∧ isIdent (pathBase p.importPath) = true ∨ p.name = realName p.importPath := by
    intro c hc
    rcases List.mem_append.1 hc with hc | hc
    · rcases List.mem_append.1 hc with hc | hc
      · exact h.calls c (List.mem_append_left _ hc)
      · obtain ⟨p, hp, rfl⟩ := List.mem_map.1 hc
        intro q hq
        rw [List.mem_singleton.1 hq]
        exact h.pkgs p hp
    · exact h.calls c (List.mem_append_right _ hc)
  have ht : ∀ c ∈ before ++ registerAll pkgs ++ later, Truthful realName c.packages :=
    fun c hc' p hp => (hc c hc' p hp).imp And.left id
  have hne : ∀ p, realName p ≠ [] := by
    intro p e
    have := h.real p
    rw [e] at this
    cases this
  refine ⟨?_, ?_, ?_, ?_⟩
  · rw [e]; exact inv_after _
  · rw [e]; exact trueNames_after ht
  · rw [e]
    refine imports_are_identifiers ht (fun c hc' q hq hn => ?_) h.real
    rcases hc c hc' q hq with h1 | h1
    · exact h1.2
    · exact absurd (h1.symm.trans hn) (hne _)
  · intro p hp
    have h1 := (after_registerAll ((newImportsFor own).after before) pkgs).ext
    have h2 := (evolves_after later (((newImportsFor own).after before).after (registerAll pkgs))).ext
    rcases registerAll_known ((newImportsFor own).after before) _ p hp with h3 | h3
    · exact .inl (by rw [h2.own, h1.own]; exact h3)
    · right
      obtain ⟨d, hd⟩ := Option.ne_none_iff_exists'.1 h3
      rw [h2.keeps _ _ hd]; simp

theorem effect_qualifySymOrRef (o : Arg) : ∀ s : SymbolOrMethodRef, Effect (packagesOf [match s with
    | .symbol s => s
    | .method m => m.type]) (qualifySymOrRef o s)
  | .symbol s => .bindQ (effect_qualify s) fun _ => .pure _
  | .method m => .bindQ (effect_qualify m.type) fun _ => .ite (.pure _) (.pure _)

theorem effect_qualifyArg {h : Heap} {a : Arg} {ref : Reference} (hd : Denotes h a ref) :
    Effect ref.mentions (qualifyArg h a) := by
  cases hd <;> rw [qualifyArg]
  case package | packagePtr => exact .bindQ (effect_registerPackage _) fun _ => .ite (.pure _) (.pure _)
  case symbol | symbolPtr => exact .bindQ (effect_qualify _) fun _ => .pure _
  case mref | mrefPtr => exact effect_qualifySymOrRef _ (.method _)
  case typeName => exact .bindQ (.bindQ (effect_qualifyType _) fun _ => .pure _) fun _ => .pure _
  case value h1 h2 h3 h4 =>
    refine .bind_lift fun s hs => ?_
    simp [deref, Outcome.bind, h1, h2, h3, h4, ValueSpec.toSymbol, ValueSpec.symbolAt, packageAt, GoFile.package] at hs
    subst hs
    exact effect_qualifySymOrRef _ (.symbol _)
  case typeSpec h1 h2 h3 h4 =>
    refine .bind_lift fun s hs => ?_
    simp [deref, Outcome.bind, h1, h2, h3, h4, TypeSpec.toSymbol, packageAt, GoFile.package] at hs
    subst hs
    exact effect_qualifySymOrRef _ (.symbol _)
  case func h1 h2 h3 h4 =>
    refine .bind_lift fun s hs => ?_
    simp [deref, Outcome.bind, h1, h2, h3, h4, FuncSpec.toSymbol, packageAt, GoFile.package] at hs
    subst hs
    exact effect_qualifySymOrRef _ (.symbol _)
  case method h1 h2 h3 h4 =>
    refine .bind_lift fun s hs => ?_
    simp [deref, Outcome.bind, h1, h2, h3, h4, FuncSpec.toSymbol, packageAt, GoFile.package] at hs
    subst hs
    exact effect_qualifySymOrRef _ (.method _)
  case ifaceMethod h1 h2 h3 h4 h5 h6 =>
    refine .bind_lift fun s hs => ?_
    simp [deref, Outcome.bind, h1, h2, h3, h4, h5, h6, InterfaceMethod.toMethodRef, TypeSpec.toSymbol, packageAt,
      GoFile.package] at hs
    subst hs
    exact effect_qualifySymOrRef _ (.method _)
  case reflectType h1 | goType h1 =>
    refine .bind_lift fun s hs => ?_
    rw [h1] at hs
    cases hs
    exact .bindQ (.bindQ (effect_qualifyType _) fun _ => .pure _) fun _ => .pure _
  case goSymbol h1 =>
    refine .bind_lift fun s hs => ?_
    rw [h1] at hs
    cases hs
    exact effect_qualifySymOrRef _ (.symbol _)
  case goMethod h1 =>
    refine .bind_lift fun s hs => ?_
    rw [h1] at hs
    cases hs
    exact effect_qualifySymOrRef _ (.method _)
  case goPackage =>
    refine .bind_lift fun s hs => ?_
    cases hs
    exact .bindQ (effect_registerPackage _) fun _ => .pure _

/-! ### The property -/

/-- C66 in full, for code: what is written for an argument of `Printf` that stands for a reference refers in the file to
what the reference stands for, if the names of packages are the real ones and the file's own names are declared. -/
def C66_full : Prop := ∀ (tbl : Nat → Bool) (own : GoString) (realName : GoString → GoString) (decls : List GoString)
  (before later : List Call) (h : Heap) (a a' : Arg) (j : Imports) (ref : Reference),
  NamesGiven realName (before ++ later) ref.mentions → Denotes h a ref → ref.valid → ref.wellNamed = true →
  (∀ s ∈ ref.symbols, s.package.importPath = own → s.name ∈ decls) →
  (∀ s ∈ ref.symbols, s.package = ⟨[], []⟩ → s.name ∈ predeclaredNames) → (∀ n ∈ decls, n ∉ predeclaredNames) →
  qualifyArg h a ((newImportsFor own).after before) = (.ok a', j) →
  ∃ s, (∀ g, a'.shown tbl g = .str s) ∧ ((j.after later).scope decls realName).Means s ref

theorem read_one {sc : FileScope} {n : GoString} (hn : isIdent n = true) (e : Entity) (m : GoString) :
    sc.read n ≠ some (.method e m) := by
  rw [FileScope.read, splitDots_one hn, if_pos (by simp [hn])]
  dsimp only
  generalize resolveQualifier _ _ _ = l
  rcases l with _ | ⟨p, _ | ⟨p', l⟩⟩
  · simp
  · simp
  · simp

/-- A method that is not stored is written as a bare name, which is no method. -/
theorem unstored_not_means {tbl : Nat → Bool} {h : Heap} {a : Arg} {ref : Reference} {j : Imports} {sc : FileScope}
    {s : GoString} (hd : Denotes h a ref) (hw : ref.wellNamed = true) (ha : ∀ o text, a ≠ .goObject o text)
    (hst : ¬ Stored a j ref) (hs : a.shown tbl h = .str s) : ¬ sc.Means s ref := by
  intro h8
  have bare : ∀ m : MethodReference, ref = .method m → a.shown tbl h = .str m.method → False := by
    rintro m rfl hsh
    rw [hs] at hsh
    cases hsh
    rw [Reference.wellNamed, Bool.and_eq_true] at hw
    obtain ⟨e, -, h9⟩ := h8
    exact read_one hw.2 _ _ h9
  cases hd with
  | method hfn hr hp hf =>
    refine bare _ rfl ?_
    simp [Arg.shown, deref, hfn, Outcome.bind, FuncSpec.string, hr, Shown.ofString]
  | ifaceMethod hmm hp ht hn hpt hf =>
    refine bare _ rfl ?_
    simp [Arg.shown, deref, hmm, Outcome.bind, Shown.ofString]
  | goMethod ho => exact ha _ _ rfl
  | mref m => exact hst fun hc => by simp [Arg.indirect] at hc
  | mrefPtr m => exact hst fun hc => by simp [Arg.indirect] at hc
  | _ => exact hst trivial

/-- C66, exactly, for the arguments of `Printf` and `Printlnf` except methods of go/types: after any calls, and whatever is
imported later, the text refers to what the reference stands for if and only if it is the reference that is written
(`Stored`, C33) and nothing in it is hidden in the file (`Visible`). The text does not change any more then. -/
theorem C66_code_iff_partial (tbl : Nat → Bool) {own : GoString} {realName : GoString → GoString} {decls : List GoString}
    {before later : List Call} {h : Heap} {a : Arg} {ref : Reference} (hn : NamesGiven realName (before ++ later) ref.mentions)
    (hd : Denotes h a ref) (hv : ref.valid) (hw : ref.wellNamed = true) (ha : ∀ o text, a ≠ .goObject o text) :
    ∃ a' j, qualifyArg h a ((newImportsFor own).after before) = (.ok a', j) ∧
      ((∃ s, a'.shown tbl h = .str s ∧ ((j.after later).scope decls realName).Means s ref) ↔
        Stored a j ref ∧ ((j.after later).scope decls realName).Visible ref) ∧
      (Stored a j ref → ∀ g, a'.shown tbl g = a'.shown tbl h) := by
  obtain ⟨a', j, h1, h2, h3, h6⟩ := qualifyArg_denotes tbl (i := (newImportsFor own).after before)
    (inv_after before) hd hv
  refine ⟨a', j, h1, ?_, fun hst g => ?_⟩
  swap
  · obtain ⟨s, h4, -⟩ := h3 hst
    rw [h4, h4]
  obtain rfl := effect_qualifyArg hd _ _ _ h1
  obtain ⟨inv, htn, hident, hm⟩ := hn.final (own := own)
  obtain ⟨s, hs, hiff⟩ := text_means_iff tbl (decls := decls) inv htn hm hv hw hident
  by_cases hst : Stored a (((newImportsFor own).after before).after (registerAll ref.mentions)) ref
  · obtain ⟨s', h4, h5⟩ := h3 hst
    have e := h5 _ (evolves_after later _).ext
    rw [hs] at e
    cases e
    rw [← hiff]
    constructor
    · rintro ⟨s', h6, h7⟩
      rw [h4] at h6
      cases h6
      exact ⟨hst, h7⟩
    · exact fun hv => ⟨s, h4 h, hv.2⟩
  · rw [h6 hst]
    exact ⟨fun ⟨s', h7, h8⟩ => absurd h8 (unstored_not_means hd hw ha hst h7), fun h => absurd h.1 hst⟩

/-- C66, for template data: a value that is shown as the reference that it stands for (C61) refers to what is meant if and
only if nothing in it is hidden. -/
theorem C66_template_iff_partial (tbl : Nat → Bool) (shows : TVal → Shown) {own : GoString} {realName : GoString → GoString}
    {decls : List GoString} {before later : List Call} {h g : Heap} {j : Imports} {v v' w : TVal} {path : List TStep}
    {a : Bool} {r : Reference} (hv : (TVal.iface acceptsAll v).validTypes = true)
    (hn : NamesGiven realName (before ++ later) ((TVal.iface acceptsAll v).mentions h))
    (hfl : (TVal.iface acceptsAll v).flatIfaces = true)
    (hq : qualifyTemplateData h v ((newImportsFor own).after before) = (.ok v', j)) (hp : v.Preserved h j.qualifierOf)
    (hf : (TVal.iface acceptsAll v).follow false path = some (a, w)) (hr : w.ref h a = some r) (hw : r.wellNamed = true)
    (hg : SpecNamesStay h g) (hsh : w.ShownRight tbl shows h j a) :
    ∃ w' s, (TVal.iface acceptsAll v').follow false path = some (a, w') ∧ w'.shown tbl shows g a = .str s ∧
      (((j.after later).scope decls realName).Means s r ↔ ((j.after later).scope decls realName).Visible r) := by
  obtain ⟨w', h1, h2⟩ := C61_exactly_partial tbl shows ⟨own, before, rfl⟩ hv hfl hq hp hf hr hg
  obtain ⟨s, h3, h4⟩ := h2.2 hsh later
  refine ⟨w', s, h1, h4, ?_⟩
  obtain ⟨p1, p2⟩ := part_follow h path hf
  obtain ⟨r1, r2⟩ := ref_part h w a hr
  obtain rfl := C42_imports hq
  obtain ⟨inv, htn, hident, hm⟩ := hn.final (own := own)
  obtain ⟨s', hs, hiff⟩ := text_means_iff tbl (decls := decls) inv htn (fun p hp => hm p (p2 p (r2 hsh.1 p hp)))
    (r1 (p1 hv)) hw hident
  rw [h3] at hs
  cases hs
  exact hiff

/-! ### Examples -/

/-- In a file that imports a package called `len`, `len` is that package. -/
theorem C66_full_fails : ¬ C66_full := by
  intro hall
  obtain ⟨s, h1, e, h2, h3⟩ := hall (fun _ => true) exOwn (fun _ => b! "len") [] [.registerImport (b! "x/len") (b! "len")] [] {}
    (.symbol ⟨⟨[], []⟩, b! "len"⟩) _ _ (.symbol ⟨⟨[], []⟩, b! "len"⟩)
    ⟨by simp [Call.packages], by decide, fun _ => by decide⟩ (.symbol _) trivial (by decide) (by decide) (by decide)
    (by decide) rfl
  cases h1 {}
  revert h3
  cases h2
  decide

/-- Two packages called `q`: a symbol, a method and a type of the second. -/
example : ∀ r ∈ [Reference.symbol ⟨⟨b! "y/q", b! "q"⟩, b! "F"⟩, .method ⟨⟨⟨b! "y/q", b! "q"⟩, b! "T"⟩, b! "M"⟩,
      .package ⟨b! "y/q", b! "q"⟩],
    (r.text (fun _ => true) ((newImportsFor exOwn).after
      [.registerImport (b! "x/q") (b! "q"), .registerImport (b! "y/q") (b! "q")])) ∈
      [.ok (b! "q1.F"), .ok (b! "q1.T.M"), .ok (b! "q1")] := by decide

example :
    let sc := ((newImportsFor exOwn).after
      [.registerImport (b! "x/q") (b! "q"), .registerImport (b! "y/q") (b! "q")]).scope [b! "U"] (fun _ => b! "q")
    sc.read (b! "q1.F") = some (.entity (.declared (b! "y/q") (b! "F"))) ∧
    sc.read (b! "q1.T.M") = some (.method (.declared (b! "y/q") (b! "T")) (b! "M")) ∧
    sc.read (b! "q1") = some (.package (b! "y/q")) ∧ sc.read (b! "U.M") = some (.method (.declared exOwn (b! "U")) (b! "M")) ∧
    sc.read (b! "len") = some (.entity (.predeclared (b! "len"))) ∧ sc.read (b! "q2.F") = none := by decide

/-- The conditions of `C66_code_iff_partial` are met: `F` of the second package called `q`, with a third one registered
later. -/
example : ∃ a' j, qualifyArg {} (.symbol ⟨⟨b! "y/q", b! "q"⟩, b! "F"⟩)
      ((newImportsFor exOwn).after [.registerImport (b! "x/q") (b! "q")]) = (.ok a', j) ∧
    ∃ s, a'.shown (fun _ => true) {} = .str s ∧
      ((j.after [.registerImport (b! "z/q") (b! "q")]).scope [b! "F"] fun _ => b! "q").Means s
        (.symbol ⟨⟨b! "y/q", b! "q"⟩, b! "F"⟩) := by
  obtain ⟨a', j, h1, h2, -⟩ := C66_code_iff_partial (fun _ => true) (own := exOwn) (realName := fun _ => b! "q")
    (decls := [b! "F"]) (before := [.registerImport (b! "x/q") (b! "q")])
    (later := [.registerImport (b! "z/q") (b! "q")]) (h := {}) (a := .symbol ⟨⟨b! "y/q", b! "q"⟩, b! "F"⟩)
    ⟨by simp [Call.packages], by simp [Reference.mentions, packagesOf], fun _ => by decide⟩ (.symbol _) trivial (by decide)
    (by intro _ _ h; cases h)
  refine ⟨a', j, h1, h2.2 ⟨trivial, reaches_other (by decide) ?_⟩⟩
  obtain rfl := effect_qualifyArg (.symbol _) _ _ _ h1
  decide

/-- A package for the own package is written as nothing. -/
example : ∃ j, qualifyArg {} (.package ⟨exOwn, b! "foo"⟩) (newImportsFor exOwn) = (.ok (.package ⟨exOwn, []⟩), j) ∧
    (Arg.package ⟨exOwn, []⟩).shown (fun _ => true) {} = .str [] := ⟨_, rfl, rfl⟩

end Gopoet
