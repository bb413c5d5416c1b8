import Verif.Proof.TruthLemmas
import Verif.Proof.SpecVisits
import Verif.Props.Decls
import Mathlib.Logic.Function.Iterate
/-! Properties C30 and C31: whole files. -/

namespace Gopoet
open Imports

/-! ## C30 -/

/-- What the packages in a file's input and in the history of its Imports are called is what they are
called: the names are empty, or true, or of packages that are imported already (or the file's own). -/
structure TruthfulInput (realName : GoString → GoString) (h : Heap) (f : GoFile) : Prop where
  history : ∃ history, f.imports = (newImportsFor f.imports.pkgPath).after history ∧
    ∀ c ∈ history, Truthful realName c.packages
  mentioned : ∀ pk, Mentioned h pk → pk.name = [] ∨ pk.name = realName pk.importPath ∨
    pk.importPath = f.imports.pkgPath ∨ pk.importPath ∈ f.imports.importedPaths

/-- In the file, the package name is a qualifier that the imports bind to the path and to nothing
else; references to the file's own package and to predeclared names have no qualifier. -/
def ResolvesIn (realName : GoString → GoString) (f : GoFile) (pk : Package) : Prop :=
  pk = ⟨[], []⟩ ∨ pk = ⟨f.imports.pkgPath, []⟩ ∨
    resolveQualifier realName f.imports.importSpecs pk.name = [pk.importPath]

/-- The packages whose names are rendered as qualifiers. Besides those of `Written`: a named
`*TypeSpec` as the type of a constant, variable or field and an `*InterfaceEmbed` as an argument. -/
inductive Rendered (h : Heap) : FileElem → Package → Prop
  | written {e pk} : Written h e pk → Rendered h e pk
  | value {p d q c r tr fp file} : h.valueDecls p = some d → q ∈ d.specs → h.values q = some c →
      c.type = .spec r → h.types r = some tr → tr.name ≠ [] → tr.parent = some fp →
      h.files fp = some file → Rendered h (.values p) file.package
  | field {p d q ts x f r tr fp file} : h.typeDecls p = some d → q ∈ d.types → h.types q = some ts →
      x ∈ ts.structBody → h.fields x = some f → f.type = .spec r → h.types r = some tr → tr.name ≠ [] →
      tr.parent = some fp → h.files fp = some file → Rendered h (.types p) file.package
  | embedArg {p f format q l x e} : h.funcs p = some f → .line format q ∈ f.code → h.args q = some l →
      .ifaceEmbed x ∈ l → h.embeds x = some e → Rendered h (.func p) e.type.package

/-- C30 in full: after a file is written with truthful package names, every qualifier in it is bound
by its import statements to the package that is meant. -/
def C30_full : Prop := ∀ (realName : GoString → GoString) (env : Env) (fuel : Nat) (p : Ptr) (h h' : Heap)
  (f f' : GoFile) (text : GoString), h.files p = some f → TruthfulInput realName h f →
  renderFile env fuel p h = (.ok text, h') → h'.files p = some f' →
    ∀ e ∈ f'.elements, ∀ pk, Rendered h' e pk → ResolvesIn realName f' pk

theorem qualifyFile_of_renderFile {env fuel p h h' text} (hr : renderFile env fuel p h = (.ok text, h')) :
    qualifyFile fuel p h = (.ok (), h') := by
  unfold renderFile at hr
  rcases hq : qualifyFile fuel p h with ⟨_ | _ | _, h1⟩ <;> rw [hq] at hr <;>
    simp only [Prod.mk.injEq] at hr
  · rw [← hr.2]
  · simp at hr
  · simp at hr

/-- Nothing is imported under the package path "", or the data of templates has no specs in it. (The copies
that stand for specs have this path.) -/
def NoCopyImported (h : Heap) (i : Imports) : Prop := NoSpecData h ∨ [] ∉ i.importedPaths

theorem NoCopyImported.get {h : Heap} {i : Imports} (hn : NoCopyImported h i) :
    NoSpecData h ∨ i.importsByPath.get [] = none :=
  hn.imp_right fun h => by
    by_contra hne
    exact h ((mem_importPaths _ _).2 hne)

theorem TruthfulInput.after {realName h f h' i'} (ht : TruthfulInput realName h f) (hn : NoCopyImported h i')
    (h5 : Later h f.imports h' i') : Inv i' ∧ TrueNames realName i' := by
  obtain ⟨history, hi, hh⟩ := ht.history
  have inv : Inv f.imports := by rw [hi]; exact inv_after history
  have hstate : TruthState realName (NoSpecData h) h f.imports := by
    refine ⟨?_, fun pk hm => .inl ?_⟩
    · rw [hi]
      refine (evolves_after history _).trueNames ?_ (by intro p d hd; simp [newImportsFor] at hd)
      rintro pk ⟨c, hc, hp⟩ -
      exact (hh c hc pk hp).imp id .inl
    · refine (ht.mentioned pk hm).imp id (Or.imp id fun hk => .inr (hk.imp id fun hk => ?_))
      exact (mem_importPaths _ _).1 hk
  exact ⟨h5.inv inv, (h5.truth hstate hn.get).names⟩

/-- C30: everything that the elements of a file mention before it is written is imported afterwards,
whatever names were given. What is missing from the full property: see
`C30_qualifiers_resolve_partial`. -/
theorem C30_all_imported_partial {env : Env} {fuel : Nat} {p : Ptr} {h h' : Heap} {f f' : GoFile}
    {text : GoString} (hf : h.files p = some f) (hf' : h'.files p = some f')
    (hr : renderFile env fuel p h = (.ok text, h')) :
    ∀ e ∈ f.elements, ∀ pk, Written h e pk →
      pk = ⟨[], []⟩ ∨ pk.importPath = f.imports.pkgPath ∨ pk.importPath ∈ f'.imports.importedPaths := by
  obtain ⟨g, g', h1, h2, h3, h4, h5⟩ := qualifyFile_settled (qualifyFile_of_renderFile hr)
  rw [hf] at h1
  rw [hf'] at h2
  obtain rfl := Option.some.inj h1
  obtain rfl := Option.some.inj h2
  intro e he pk hw
  have hk : PkgKnown f'.imports pk := by
    rcases h5.written hw with hk | hk
    · exact hk
    · exact ((h4 e (by rw [h3]; exact he)).written hk).known
  rcases hk with hk | hk | hk
  · exact .inl hk
  · exact .inr (.inl (hk.trans h5.ext.own))
  · exact .inr (.inr ((mem_importPaths _ _).2 hk))

/-- C30 for types, signatures, reference arguments and template data: after a file is written with
truthful package names, every qualifier is bound by its import statements to the package that is
meant. What is missing from the full property: named `*TypeSpec`s as types of constants, variables and
fields, and `*InterfaceEmbed`s as arguments, which are never imported, see `C30_full_fails`, and files
that import the path "" because of specs in template data, see `C31_full_fails`. -/
theorem C30_qualifiers_resolve_partial {realName : GoString → GoString} {env : Env} {fuel : Nat} {p : Ptr}
    {h h' : Heap} {f f' : GoFile} {text : GoString} (hn : NoCopyImported h f'.imports) (hf : h.files p = some f)
    (ht : TruthfulInput realName h f) (hr : renderFile env fuel p h = (.ok text, h'))
    (hf' : h'.files p = some f') :
    f'.elements = f.elements ∧
    ∀ e ∈ f'.elements, ∀ pk, Written h' e pk → ResolvesIn realName f' pk := by
  obtain ⟨g, g', h1, h2, h3, h4, h5⟩ := qualifyFile_settled (qualifyFile_of_renderFile hr)
  rw [hf] at h1
  rw [hf'] at h2
  obtain rfl := Option.some.inj h1
  obtain rfl := Option.some.inj h2
  refine ⟨by rw [h3], fun e he pk hw => ?_⟩
  obtain ⟨inv', hnames⟩ := ht.after hn h5
  rcases (h4 e he).written hw with hq | ⟨hq, hq2⟩ | ⟨_, d, hd, hq⟩
  · exact .inl hq
  · refine .inr (.inl ?_)
    cases pk
    dsimp only at hq hq2
    rw [hq, hq2]
  · exact .inr (.inr (by rw [← hq]; exact resolve_of_trueNames inv' hnames hd))

theorem NamedIn.resolves {realName : GoString → GoString} {f : GoFile} (inv : Inv f.imports)
    (hnames : TrueNames realName f.imports) {pk : Package} (h : NamedIn f.imports pk) : ResolvesIn realName f pk := by
  rcases h with ⟨hq, hq2⟩ | ⟨_, d, hd, hq⟩
  · refine .inr (.inl ?_)
    cases pk
    dsimp only at hq hq2
    rw [hq, hq2]
  · exact .inr (.inr (by rw [← hq]; exact resolve_of_trueNames inv hnames hd))

/-- C30 for the `*ConstSpec`s, `*VarSpec`s, `*TypeSpec`s and `*FuncSpec`s in template data: they are shown
with qualifiers that are bound to the packages that they are declared in. What is missing: files of the
package path "" and files that import it, see `C31_full_fails`. -/
theorem C30_specs_resolve_partial {realName : GoString → GoString} {env : Env} {fuel : Nat} {p : Ptr}
    {h h' : Heap} {f f' : GoFile} {text : GoString} (hf : h.files p = some f)
    (ht : TruthfulInput realName h f) (hr : renderFile env fuel p h = (.ok text, h'))
    (hf' : h'.files p = some f') (hown : f.imports.pkgPath ≠ []) (hn : [] ∉ f'.imports.importedPaths) :
    ∀ e ∈ f'.elements, ∀ r pk, ShownSpec h' e r pk → ResolvesIn realName f' pk := by
  have hq := qualifyFile_of_renderFile hr
  obtain ⟨g, g', h1, h2, h3, h4, h5⟩ := qualifyFile_settled hq
  rw [hf] at h1
  rw [hf'] at h2
  obtain rfl := Option.some.inj h1
  obtain rfl := Option.some.inj h2
  obtain ⟨inv', hnames⟩ := ht.after (.inr hn) h5
  rintro e he r pk (⟨g1, g2, g3, g4, g5⟩ | ⟨g1, g2, g3, g4, g5⟩)
  all_goals
    obtain ⟨t, k1, k2⟩ := qualifyFile_visits visits_specs hq hf hf' trivial he g1
    rw [k1] at g2
    obtain rfl := Option.some.inj g2
    have := k2 _ g3
  · obtain ⟨o, l1, l2⟩ := this
    rw [l1] at g4
    obtain ⟨f1, l3, l4⟩ := l2 _ (by simpa using g4)
    rw [l3] at g5
    obtain rfl := Option.some.inj g5
    exact l4.resolves inv' hnames
  · rcases this with (⟨l1, -⟩ | ⟨-, d, l1, -⟩) | ⟨p1, f1, l1, l2, l3⟩
    · exact absurd (h5.ext.own.symm.trans l1.symm) hown
    · exact absurd ((mem_importPaths _ _).2 (by rw [l1]; simp)) hn
    · rw [l1] at g4
      obtain rfl : p1 = _ := by simpa using g4
      rw [l2] at g5
      obtain rfl := Option.some.inj g5
      exact l3.resolves inv' hnames

/-- A file of package x/p with a variable and a field of the type q.T that is declared as a
`*TypeSpec` in another file, and with an embedded interface q.I as an argument. -/
def exNamedWith (i : Imports) : Heap where
  files p := if p = 0 then some { name := b! "p.go", packageName := b! "p", imports := i
                                  elements := [.values 3, .types 7, .func 4] }
    else if p = 1 then some { name := b! "q.go", packageName := b! "q", imports := newImportsFor (b! "x/q") }
    else none
  types p := if p = 2 then some { name := b! "T", underlying := .basic .int, parent := some 1 }
    else if p = 8 then some { name := b! "S", underlying := .struct [], structBody := [9], parent := some 0 }
    else none
  typeDecls p := if p = 7 then some { types := [8] } else none
  fields p := if p = 9 then some { name := b! "f", type := .spec 2 } else none
  valueDecls p := if p = 3 then some { kind := .var, specs := [6] } else none
  values p := if p = 6 then some { kind := .var, names := [b! "v"], type := .spec 2, parent := some 0 } else none
  funcs p := if p = 4 then some { name := b! "F", parent := some 0, code := [.line (b! "%s\n") 5] } else none
  args p := if p = 5 then some [.ifaceEmbed 10] else none
  embeds p := if p = 10 then some { type := ⟨⟨b! "x/q", b! "q"⟩, b! "I"⟩ } else none

/-- The same, with nothing imported so far. -/
def exNamed : Heap := exNamedWith (newImportsFor (b! "x/p"))

theorem exNamed_text : (renderFile exEnv 3 0 exNamed).1 = .ok (b! "package p\n\n\nvar v q.T\n\ntype S  struct {\nf q.T\n}\n\nfunc F() {\nq.I\n}\n") := by
  decide

/-- The names of the packages x/p and x/q. -/
def exRealName (path : GoString) : GoString := if path = b! "x/p" then b! "p" else b! "q"

theorem exNamed_truthful {f : GoFile} (history : List Call) (hh : ∀ c ∈ history, Truthful exRealName c.packages)
    (hf : (exNamedWith ((newImportsFor (b! "x/p")).after history)).files 0 = some f) :
    TruthfulInput exRealName (exNamedWith ((newImportsFor (b! "x/p")).after history)) f := by
  have hown : ((newImportsFor (b! "x/p")).after history).pkgPath = b! "x/p" := (evolves_after history _).ext.own
  cases hf
  refine ⟨⟨history, by rw [hown], hh⟩, fun pk hm => ?_⟩
  refine (?_ : pk.name = [] ∨ pk.name = exRealName pk.importPath).imp id .inl
  cases hm with
  | file h =>
    simp only [exNamedWith] at h
    split at h
    · cases h
      right
      simp only [GoFile.package, hown]
      decide
    · split at h
      · cases h; decide
      · simp at h
  | value h h2 h3 =>
    simp only [exNamedWith] at h
    split at h
    · cases h; cases h2
    · simp at h
  | type h h2 =>
    simp only [exNamedWith] at h
    split at h
    · cases h; revert h2; simp [TypeName.symbols]
    · split at h
      · cases h; revert h2; simp [TypeName.symbols, symbolsFields]
      · simp at h
  | field h h2 h3 =>
    simp only [exNamedWith] at h
    split at h
    · cases h; cases h2
    · simp at h
  | embed h =>
    simp only [exNamedWith] at h
    split at h
    · cases h; decide
    · simp at h
  | method h => simp [exNamedWith] at h
  | func h h2 =>
    simp only [exNamedWith] at h
    split at h
    · cases h; revert h2; simp [Signature.symbols, symbolsArgs]
    · simp at h
  | arg h h2 h3 =>
    simp only [exNamedWith] at h
    split at h
    · cases h
      simp only [List.mem_singleton] at h2
      subst h2
      simp [Arg.packages] at h3
    · simp at h
  | templ h => simp [exNamedWith] at h

/-- C30 fails: nothing is imported for a named `*TypeSpec` as a type (model.go:390-406) or for an
`*InterfaceEmbed` as an argument (code.go:136-196). The file written for `exNamed` has three
qualified references and no import. -/
theorem C30_full_fails : ¬ C30_full := by
  intro hall
  have := hall exRealName exEnv 3 0 exNamed (renderFile exEnv 3 0 exNamed).2 _ _ _ rfl (exNamed_truthful [] (by simp) rfl)
    (by rw [← exNamed_text]) rfl (.values 3) (by decide) _
    (.value (q := 6) rfl (List.mem_singleton.2 rfl) rfl rfl rfl
      (List.cons_ne_nil _ _) rfl rfl)
  revert this
  unfold ResolvesIn
  decide

/-- The references that are written with the package name they have, although nothing is imported for them: a named
`*TypeSpec` as the type of a constant, variable or field and an `*InterfaceEmbed` as an argument. -/
inductive Unregistered (h : Heap) : FileElem → Package → Prop
  | value {p d q c r tr fp file} : h.valueDecls p = some d → q ∈ d.specs → h.values q = some c →
      c.type = .spec r → h.types r = some tr → tr.name ≠ [] → tr.parent = some fp →
      h.files fp = some file → Unregistered h (.values p) file.package
  | field {p d q ts x f r tr fp file} : h.typeDecls p = some d → q ∈ d.types → h.types q = some ts →
      x ∈ ts.structBody → h.fields x = some f → f.type = .spec r → h.types r = some tr → tr.name ≠ [] →
      tr.parent = some fp → h.files fp = some file → Unregistered h (.types p) file.package
  | embedArg {p f format q l x e} : h.funcs p = some f → .line format q ∈ f.code → h.args q = some l →
      .ifaceEmbed x ∈ l → h.embeds x = some e → Unregistered h (.func p) e.type.package

theorem rendered_iff {h : Heap} {e : FileElem} {pk : Package} :
    Rendered h e pk ↔ Written h e pk ∨ Unregistered h e pk := by
  constructor
  · rintro (h | ⟨h1, h2, h3, h4, h5, h6, h7, h8⟩ | ⟨h1, h2, h3, h4, h5, h6, h7, h8, h9, h10⟩ | ⟨h1, h2, h3, h4, h5⟩)
    · exact .inl h
    · exact .inr (.value h1 h2 h3 h4 h5 h6 h7 h8)
    · exact .inr (.field h1 h2 h3 h4 h5 h6 h7 h8 h9 h10)
    · exact .inr (.embedArg h1 h2 h3 h4 h5)
  · rintro (h | ⟨h1, h2, h3, h4, h5, h6, h7, h8⟩ | ⟨h1, h2, h3, h4, h5, h6, h7, h8, h9, h10⟩ | ⟨h1, h2, h3, h4, h5⟩)
    · exact .written h
    · exact .value h1 h2 h3 h4 h5 h6 h7 h8
    · exact .field h1 h2 h3 h4 h5 h6 h7 h8 h9 h10
    · exact .embedArg h1 h2 h3 h4 h5

/-- C30: every qualifier in the file is bound to the package that is meant, exactly if the packages of the references
for which nothing is imported happen to be imported for something else, under the name they have (or are the file's own
and have no name). What is missing from the full property: the other files, see `C30_full_fails`, and files that import
the path "" because of specs in template data. -/
theorem C30_exactly_partial {realName : GoString → GoString} {env : Env} {fuel : Nat} {p : Ptr}
    {h h' : Heap} {f f' : GoFile} {text : GoString} (hn : NoCopyImported h f'.imports) (hf : h.files p = some f)
    (ht : TruthfulInput realName h f) (hr : renderFile env fuel p h = (.ok text, h'))
    (hf' : h'.files p = some f') :
    (∀ e ∈ f'.elements, ∀ pk, Rendered h' e pk → ResolvesIn realName f' pk) ↔
    ∀ e ∈ f'.elements, ∀ pk, Unregistered h' e pk → pk = ⟨[], []⟩ ∨
      ((pk.importPath = f'.imports.pkgPath ∨ pk.importPath ∈ f'.imports.importedPaths) ∧
        pk.name = f'.imports.qualifierOf pk.importPath) := by
  have hw := (C30_qualifiers_resolve_partial hn hf ht hr hf').2
  obtain ⟨g, g', h1, h2, h3, h4, h5⟩ := qualifyFile_settled (qualifyFile_of_renderFile hr)
  rw [hf] at h1
  rw [hf'] at h2
  obtain rfl := Option.some.inj h1
  obtain rfl := Option.some.inj h2
  obtain ⟨inv', hnames⟩ := ht.after hn h5
  have key : ∀ pk : Package, ResolvesIn realName f' pk ↔ pk = ⟨[], []⟩ ∨
      ((pk.importPath = f'.imports.pkgPath ∨ pk.importPath ∈ f'.imports.importedPaths) ∧
        pk.name = f'.imports.qualifierOf pk.importPath) := by
    rintro ⟨path, name⟩
    unfold ResolvesIn
    refine or_congr Iff.rfl ?_
    rw [resolve_iff inv' hnames, show path ∈ f'.imports.importedPaths ↔ _ from mem_importPaths _ _]
    dsimp only
    by_cases ho : path = f'.imports.pkgPath
    · subst ho
      simp [inv'.ownAbsent, Imports.qualifierOf]
    · cases hg : f'.imports.importsByPath.get path with
      | none => simp [ho]
      | some d => simp [ho, Imports.qualifierOf, hg, eq_comm]
  constructor
  · intro hall e he pk hu
    exact (key pk).1 (hall e he pk (rendered_iff.2 (.inr hu)))
  · intro hall e he pk hren
    rcases rendered_iff.1 hren with h | h
    · exact hw e he pk h
    · exact (key pk).2 (hall e he pk h)

/-- Here the package x/q was imported before, so that all three references are valid. -/
def exNamedImported : Heap := exNamedWith ((newImportsFor (b! "x/p")).after [.registerImport (b! "x/q") (b! "q")])

theorem exNamedImported_text : (renderFile exEnv 3 0 exNamedImported).1 = .ok (b! "package p\n\nimport \"x/q\"\n\nvar v q.T\n\ntype S  struct {\nf q.T\n}\n\nfunc F() {\nq.I\n}\n") := by
  decide +kernel

example : ((renderFile exEnv 3 0 exNamedImported).2.files 0).map (fun f =>
    resolveQualifier exRealName f.imports.importSpecs (b! "q")) = some [b! "x/q"] := by decide +kernel

/-! ## C31 -/

/-- C31 in full: writing a file again gives the same source and the same import statements. -/
def C31_full : Prop := ∀ (env : Env) (fuel : Nat) (p : Ptr) (h h' : Heap) (text : GoString),
  renderFile env fuel p h = (.ok text, h') →
    (renderFile env fuel p h').1 = .ok text ∧
    ∀ f' f'', h'.files p = some f' → (renderFile env fuel p h').2.files p = some f'' →
      f''.imports.importSpecs = f'.imports.importSpecs

/-- The copies that stand for specs in the data of the file's templates have the package name by which the
file calls the package path "", which is its own or imported. -/
def CopiesFit (h : Heap) (f : GoFile) : Prop :=
  ∀ e ∈ f.elements, ∀ q, TemplateIn h e q → ∀ t, h.templs q = some t → ∀ n ∈ t.data.copyNames,
    ([] = f.imports.pkgPath ∨ [] ∈ f.imports.importedPaths) ∧ n = f.imports.qualifierOf []

theorem namedIn_iff {i : Imports} {p n : GoString} :
    NamedIn i ⟨p, n⟩ ↔ (p = i.pkgPath ∨ p ∈ i.importedPaths) ∧ n = i.qualifierOf p := by
  rw [show p ∈ i.importedPaths ↔ _ from mem_importPaths _ _]
  by_cases ho : p = i.pkgPath
  · simp [NamedIn, Imports.qualifierOf, ho]
  · cases hg : i.importsByPath.get p with
    | none => simp [NamedIn, ho, hg]
    | some d =>
      simp only [NamedIn, ho, false_and, not_false_eq_true, true_and, false_or, hg, Option.some.injEq,
        exists_eq_left', Imports.qualifierOf, if_neg, ne_eq, reduceCtorEq, or_true]
      exact eq_comm

/-- C31: the second writing gives the same source and changes nothing on the heap at all, exactly if after the
first one the copies that stand for specs in template data have the name of the package path "". What is
missing are the other cases: there `C31_full_fails`. -/
theorem C31_again_iff_partial {env : Env} {fuel : Nat} {p : Ptr} {h h' : Heap} {text : GoString} {f' : GoFile}
    (hr : renderFile env fuel p h = (.ok text, h')) (hf' : h'.files p = some f') :
    renderFile env fuel p h' = (.ok text, h') ↔ CopiesFit h' f' := by
  have hq := qualifyFile_of_renderFile hr
  obtain ⟨f, g, h1, h2, -, h4, -⟩ := qualifyFile_settled hq
  rw [hf'] at h2
  obtain rfl := Option.some.inj h2
  constructor
  · intro hr2
    have hq2 := qualifyFile_of_renderFile hr2
    intro e he q ht t hqt n hn
    have hk : KeptNamed (fun q => ∃ e ∈ f'.elements, TemplateIn h' e q) h' f'.imports := by
      rintro q t ⟨e, he, ht⟩ hqt r hr
      obtain ⟨t', k1, k2⟩ := qualifyFile_visits visits_specs hq h1 hf' trivial he ht
      rw [hqt] at k1
      obtain rfl := Option.some.inj k1
      exact k2 _ hr
    obtain ⟨t', k1, k2⟩ := qualifyFile_visits (visits_copies _) hq2 hf' hf' hk he ht ⟨e, he, ht⟩
    rw [hqt] at k1
    obtain rfl := Option.some.inj k1
    exact namedIn_iff.1 (k2 n hn)
  · intro hc
    have : qualifyFile fuel p h' = (.ok (), h') :=
      qualifyFile_of_settled hf' h4 fun e he q ht t hqt n hn => namedIn_iff.2 (hc e he q ht t hqt n hn)
    unfold renderFile at hr ⊢
    rw [hq] at hr
    rw [this]
    exact hr

/-- C31: whatever the file is, from the second writing on nothing changes any more. -/
theorem C31_settled_after_two {env : Env} {fuel : Nat} {p : Ptr} {h h' h'' : Heap} {text text' : GoString}
    (hr : renderFile env fuel p h = (.ok text, h')) (hr' : renderFile env fuel p h' = (.ok text', h'')) :
    renderFile env fuel p h'' = (.ok text', h'') := by
  have hq := qualifyFile_of_renderFile hr
  have hq' := qualifyFile_of_renderFile hr'
  obtain ⟨f, f', h1, h2, h3, h4, -⟩ := qualifyFile_settled hq
  obtain ⟨g, g', h1', h2', h3', -, h5⟩ := qualifyFile_settled hq'
  rw [h2] at h1'
  obtain rfl := Option.some.inj h1'
  refine (C31_again_iff_partial hr' h2').2 fun e he q ht t hqt n hn => ?_
  have he' : e ∈ f'.elements := by rw [h3'] at he; exact he
  have ht' := (h4 e he').templateIn h5 ht
  have hk : KeptNamed (fun q => ∃ e ∈ f'.elements, TemplateIn h' e q) h' f'.imports := by
    rintro q t ⟨e, he, ht⟩ hqt r hr
    obtain ⟨t', k1, k2⟩ := qualifyFile_visits visits_specs hq h1 h2 trivial he ht
    rw [hqt] at k1
    obtain rfl := Option.some.inj k1
    exact k2 _ hr
  obtain ⟨t', k1, k2⟩ := qualifyFile_visits (visits_copies _) hq' h2 h2' hk he ht ⟨e, he', ht'⟩
  rw [hqt] at k1
  obtain rfl := Option.some.inj k1
  exact namedIn_iff.1 (k2 n hn)

/-- C31 for files whose template data contains no `*ConstSpec`, `*VarSpec`, `*TypeSpec` or
`*FuncSpec`. -/
theorem C31_again_partial {env : Env} {fuel : Nat} {p : Ptr} {h h' : Heap} {text : GoString}
    (hn : NoSpecData h) (hr : renderFile env fuel p h = (.ok text, h')) :
    renderFile env fuel p h' = (.ok text, h') := by
  obtain ⟨f, f', h1, h2, -, -, h5⟩ := qualifyFile_settled (qualifyFile_of_renderFile hr)
  refine (C31_again_iff_partial hr h2).2 fun e he q ht t hqt n hn' => ?_
  rw [copyNames_of_noSpecs (h5.noSpecData hn q t hqt)] at hn'
  cases hn'

/-- C31: so any number of further writings change nothing. -/
theorem C31_forever_partial {env : Env} {fuel : Nat} {p : Ptr} {h h' : Heap} {text : GoString} {f' : GoFile}
    (hr : renderFile env fuel p h = (.ok text, h')) (hf' : h'.files p = some f') (hc : CopiesFit h' f') (n : Nat) :
    (fun g => (renderFile env fuel p g).2)^[n] h' = h' ∧
    (renderFile env fuel p ((fun g => (renderFile env fuel p g).2)^[n] h')).1 = .ok text := by
  have h1 := (C31_again_iff_partial hr hf').2 hc
  have h2 : (fun g => (renderFile env fuel p g).2)^[n] h' = h' := by
    apply Function.iterate_fixed
    simp [h1]
  exact ⟨h2, by rw [h2, h1]⟩

/-- A file of package x/p with a function whose code mentions y/q.N and then has a template with a
type of x/q. -/
def exTwice : Heap where
  files p := if p = 0 then some { name := b! "p.go", packageName := b! "p", imports := newImportsFor (b! "x/p")
                                  elements := [.func 3] }
    else if p = 1 then some { name := b! "q.go", packageName := b! "q", imports := newImportsFor (b! "x/q") }
    else none
  types p := if p = 2 then some { name := b! "T", underlying := .basic .int, parent := some 1 } else none
  funcs p := if p = 3 then some { name := b! "F", parent := some 0, code := [.line (b! "%s\n") 4, .templ 5] } else none
  args p := if p = 4 then some [.symbol ⟨⟨b! "y/q", b! "q"⟩, b! "N"⟩] else none
  templs p := if p = 5 then some ⟨0, .ptr (.spec (.type 2))⟩ else none

/-- C31 fails: the first writing replaces the spec in the data by a copy whose parent is a made-up
file without package path (templates.go:93-134), so that the second one registers the package path
"". -/
theorem C31_full_fails : ¬ C31_full := by
  intro hall
  have h1 : (renderFile exEnv 3 0 exTwice).1 = .ok (b! "package p\n\nimport q1 \"x/q\"\nimport \"y/q\"\n\nfunc F() {\nq.N\n}\n") := by
    decide
  have h2 : (renderFile exEnv 3 0 (renderFile exEnv 3 0 exTwice).2).1 = .ok (b! "package p\n\nimport q11 \"\"\nimport q1 \"x/q\"\nimport \"y/q\"\n\nfunc F() {\nq.N\n}\n") := by
    decide
  have h3 := (hall exEnv 3 0 exTwice _ _ (by rw [← h1])).1
  rw [h2] at h3
  revert h3
  decide

/-- From the second writing on it stays like this. -/
example : (renderFile exEnv 3 0 (renderFile exEnv 3 0 (renderFile exEnv 3 0 exTwice).2).2).1 =
    (renderFile exEnv 3 0 (renderFile exEnv 3 0 exTwice).2).1 := by
  decide

/-- The copy is shown as q1.T, and x/q is imported as q1. -/
example : ShownSpec (renderFile exEnv 3 0 exTwice).2 (.func 3) (.type 2) ⟨b! "x/q", b! "q1"⟩ ∧
    ((renderFile exEnv 3 0 exTwice).2.files 0).map (fun f => f.imports.importSpecs.map (·.importPath)) =
      some [b! "x/q", b! "y/q"] ∧
    ((renderFile exEnv 3 0 exTwice).2.files 0).map (fun f => resolveQualifier exRealName f.imports.importSpecs (b! "q1")) =
      some [b! "x/q"] :=
  ⟨.copied (q := 5) (p := 1)
    (f := { name := b! "q.go", packageName := b! "q", imports := newImportsFor (b! "x/q") }) (.func rfl (List.mem_of_elem_eq_true rfl)) rfl (List.mem_singleton.2 rfl) rfl rfl, by decide, by decide⟩

/-- The same without the package y/q: x/q has its own name in the file, and the spec is kept. -/
def exTwiceKept : Heap :=
  { exTwice with
    funcs := fun p => if p = 3 then some { name := b! "F", parent := some 0, code := [.templ 5] } else none }

example : (renderFile exEnv 3 0 exTwiceKept).1 = .ok (b! "package p\n\nimport \"x/q\"\n\nfunc F() {\n}\n") := by
  decide
example : ShownSpec (renderFile exEnv 3 0 exTwiceKept).2 (.func 3) (.type 2) ⟨b! "x/q", b! "q"⟩ :=
  .kept (q := 5) (p := 1)
    (f := { name := b! "q.go", packageName := b! "q", imports := newImportsFor (b! "x/q") }) (.func rfl (List.mem_of_elem_eq_true rfl)) rfl (List.mem_singleton.2 rfl) rfl rfl
example : ∃ f, (renderFile exEnv 3 0 exTwiceKept).2.files 0 = some f ∧ CopiesFit (renderFile exEnv 3 0 exTwiceKept).2 f := by
  refine ⟨_, rfl, fun e he q ht t hqt n hn => ?_⟩
  have hq : q = 5 := by
    by_contra hne
    exact absurd (hqt.symm.trans (show (renderFile exEnv 3 0 exTwiceKept).2.templs q = none from by
      show upd _ 5 _ q = none
      rw [upd_ne _ _ hne]
      simp [exTwiceKept, exTwice, hne])) (by simp)
  subst hq
  obtain rfl := Option.some.inj (show some _ = some t from hqt)
  cases hn
example : (renderFile exEnv 3 0 (renderFile exEnv 3 0 exTwiceKept).2).1 = (renderFile exEnv 3 0 exTwiceKept).1 := by
  decide

/-- The same with a symbol in the data. -/
def exTwiceSym : Heap :=
  { exTwice with templs := fun p => if p = 5 then some ⟨0, .ptr (.symbol ⟨⟨b! "x/q", b! "q"⟩, b! "T"⟩)⟩ else none }

example : NoSpecData exTwiceSym := by
  intro p t ht
  simp only [exTwiceSym] at ht
  split at ht
  · cases ht; rfl
  · simp at ht
example : (renderFile exEnv 3 0 exTwiceSym).1 = .ok (b! "package p\n\nimport q1 \"x/q\"\nimport \"y/q\"\n\nfunc F() {\nq.N\n}\n") := by
  decide
example : (renderFile exEnv 3 0 (renderFile exEnv 3 0 exTwiceSym).2).1 = (renderFile exEnv 3 0 exTwiceSym).1 := by
  decide

/-! C30 for the last example: y/q and x/q are mentioned, and in the file q is y/q and q1 is x/q. -/

theorem exTwiceSym_truthful {f : GoFile} (hf : exTwiceSym.files 0 = some f) :
    TruthfulInput exRealName exTwiceSym f := by
  cases hf
  refine ⟨⟨[], rfl, by simp⟩, fun pk hm => ?_⟩
  cases hm with
  | file h =>
    simp only [exTwiceSym, exTwice] at h
    split at h
    · cases h; decide
    · split at h
      · cases h; decide
      · simp at h
  | value h => simp [exTwiceSym, exTwice] at h
  | type h h2 =>
    simp only [exTwiceSym, exTwice] at h
    split at h
    · cases h; revert h2; simp [TypeName.symbols]
    · simp at h
  | field h => simp [exTwiceSym, exTwice] at h
  | embed h => simp [exTwiceSym, exTwice] at h
  | method h => simp [exTwiceSym, exTwice] at h
  | func h h2 =>
    simp only [exTwiceSym, exTwice] at h
    split at h
    · cases h; revert h2; simp [Signature.symbols, symbolsArgs]
    · simp at h
  | arg h h2 h3 =>
    simp only [exTwiceSym, exTwice] at h
    split at h
    · cases h
      simp only [List.mem_singleton] at h2
      subst h2
      simp only [Arg.packages, List.mem_singleton] at h3
      subst h3
      decide
    · simp at h
  | templ h h2 =>
    simp only [exTwiceSym] at h
    split at h
    · cases h
      simp only [TVal.packages, List.mem_singleton] at h2
      subst h2
      decide
    · simp at h

example : Written exTwiceSym (.func 3) ⟨b! "y/q", b! "q"⟩ ∧ Written exTwiceSym (.func 3) ⟨b! "x/q", b! "q"⟩ :=
  ⟨.funcCode (x := .line (b! "%s\n") 4) rfl (by decide)
    (.line (a := .symbol ⟨⟨b! "y/q", b! "q"⟩, b! "N"⟩) rfl (List.mem_singleton.2 rfl) (.ref (.symbol _) (by decide))),
   .funcCode (x := .templ 5) rfl (by decide) (.templ rfl (by decide))⟩
example : Written (renderFile exEnv 3 0 exTwiceSym).2 (.func 3) ⟨b! "x/q", b! "q1"⟩ :=
  .funcCode (x := .templ 5) rfl (by decide) (.templ rfl (by decide))
example : ((renderFile exEnv 3 0 exTwiceSym).2.files 0).map (fun f =>
    (resolveQualifier exRealName f.imports.importSpecs (b! "q"),
     resolveQualifier exRealName f.imports.importSpecs (b! "q1"))) = some ([b! "y/q"], [b! "x/q"]) := by
  decide

end Gopoet
