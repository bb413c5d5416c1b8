import Verif.Props.Whole
/-! Property C34: `*TypeSpec`s as types of constants, variables and fields. -/

namespace Gopoet
open Imports

/-- `w` is a valid reference, in the given file, to what is called `name` in the package with the
given path: the name alone in the package itself and otherwise the name with a qualifier that the
imports bind to the path. -/
def ValidRef (realName : GoString → GoString) (f : GoFile) (path name w : GoString) : Prop :=
  if path = f.imports.pkgPath then w = name
  else ∃ q, w = q ++ b! "." ++ name ∧ resolveQualifier realName f.imports.importSpecs q = [path]

/-- `p` is a named `*TypeSpec` with the given name, in a file with the given package. -/
def NamedSpec (h : Heap) (p : Ptr) (name : GoString) (pk : Package) : Prop :=
  ∃ t fp file, h.types p = some t ∧ t.name = name ∧ name ≠ [] ∧ t.parent = some fp ∧
    h.files fp = some file ∧ pk = ⟨file.imports.pkgPath, file.packageName⟩

/-- C34 in full: after a file is written with truthful package names, the type of each of its
constants, variables and fields that is a named `*TypeSpec` is written as a valid reference. -/
def C34_full : Prop := ∀ (realName : GoString → GoString) (env : Env) (fuel : Nat) (p : Ptr) (h h' : Heap)
  (f f' : GoFile) (text : GoString), h.files p = some f → TruthfulInput realName h f →
  renderFile env fuel p h = (.ok text, h') → h'.files p = some f' →
    (∀ d vd q c r name pk, .values d ∈ f'.elements → h'.valueDecls d = some vd → q ∈ vd.specs →
      h'.values q = some c → c.type = .spec r → NamedSpec h' r name pk →
        ∃ w, ({ c with init := none }.text env h' false = .ok (joinWith (b! ", ") c.names ++ b! " " ++ w ++ b! "\n")) ∧
          ValidRef realName f' pk.importPath name w) ∧
    (∀ d td q ts x fs r name pk, .types d ∈ f'.elements → h'.typeDecls d = some td → q ∈ td.types →
      h'.types q = some ts → x ∈ ts.structBody → h'.fields x = some fs → fs.type = .spec r →
      NamedSpec h' r name pk →
        ∃ w, (∀ sub, FieldSpec.text env h' sub { name := fs.name, type := .spec r } =
            .ok ((if fs.name ≠ [] then fs.name ++ b! " " else []) ++ w ++ b! "\n")) ∧
          ValidRef realName f' pk.importPath name w)

theorem NamedSpec.toSymbol {h p name pk} (hs : NamedSpec h p name pk) :
    ∃ t, h.types p = some t ∧ t.name = name ∧ name ≠ [] ∧ t.parent ≠ none ∧
      t.toSymbol h = .ok ⟨pk, name⟩ := by
  obtain ⟨t, fp, file, h1, rfl, h3, h4, h5, rfl⟩ := hs
  refine ⟨t, h1, rfl, h3, by simp [h4], ?_⟩
  simp [TypeSpec.toSymbol, h3, h4, packageAt, deref_ok h5, GoFile.package]

/-- C34: a constant or variable whose type is a named `*TypeSpec` is always written with the package
name of the spec's file as qualifier, whatever file it is written to. -/
theorem C34_value_text_partial {env : Env} {h : Heap} {r : Ptr} {name : GoString} {pk : Package}
    {c : ValueSpec} (hc : c.type = .spec r) (hi : c.init = none) (hs : NamedSpec h r name pk) :
    c.text env h false = .ok (joinWith (b! ", ") c.names ++ b! " " ++
      ((if pk.name ≠ [] then pk.name ++ b! "." else []) ++ name) ++ b! "\n") := by
  obtain ⟨t, h1, h2, h3, h4, h5⟩ := hs.toSymbol
  have h6 : t.string env.isPrint h = .ok (Symbol.string ⟨pk, name⟩) := by
    cases hp : t.parent with
    | none => exact absurd hp h4
    | some fp => simp [TypeSpec.string, h2, h3, hp, h5]
  have h7 : fprintf env h (b! " %v") [.typeSpec r] = b! " " ++ Symbol.string ⟨pk, name⟩ := by
    simp [fprintf, Arg.shown, deref_ok h1, Outcome.bind, h6, Shown.ofString, sprintf, fmtVerb]
  simp only [ValueSpec.text, hi, hc, TypeRef.arg, h7]
  by_cases hn : pk.name = [] <;> simp [Symbol.string, hn]

/-- C34: the same for fields. -/
theorem C34_field_text_partial {env : Env} {h : Heap} {r : Ptr} {name : GoString} {pk : Package}
    {sub : TypeSpec → Outcome GoString} {n : GoString} (hs : NamedSpec h r name pk) :
    FieldSpec.text env h sub { name := n, type := .spec r } =
      .ok ((if n ≠ [] then n ++ b! " " else []) ++
        ((if pk.name ≠ [] then pk.name ++ b! "." else []) ++ name) ++ b! "\n") := by
  obtain ⟨t, h1, h2, h3, h4, h5⟩ := hs.toSymbol
  have h7 : fprintf env h (b! "%v") [.symbol ⟨pk, name⟩] = Symbol.string ⟨pk, name⟩ := by
    simp [fprintf, Arg.shown, sprintf, fmtVerb]
  simp only [FieldSpec.text, fieldTypeText, deref_ok h1, Outcome.bind_ok, h2, if_neg h3, h5, h7]
  by_cases hn : pk.name = [] <;> simp [Symbol.string, hn, writeComment, fieldTagText]

/-- C34: so the type is a valid reference only if the file happens to import the spec's package under
the package's own name (or the spec is in the file's own package and that has no name). What is missing
from the full property is every other case: `C34_full_fails`. -/
theorem C34_valid_iff_partial {realName : GoString → GoString} {env : Env} {fuel : Nat} {p : Ptr}
    {h h' : Heap} {f f' : GoFile} {text : GoString} (hn : NoCopyImported h f'.imports) (hf : h.files p = some f)
    (ht : TruthfulInput realName h f) (hr : renderFile env fuel p h = (.ok text, h'))
    (hf' : h'.files p = some f') (name : GoString) (pk : Package) :
    ValidRef realName f' pk.importPath name ((if pk.name ≠ [] then pk.name ++ b! "." else []) ++ name) ↔
      (pk.importPath = f'.imports.pkgPath ∧ pk.name = []) ∨
      (pk.importPath ≠ f'.imports.pkgPath ∧ pk.name ≠ [] ∧
        prefixFor pk.importPath f'.imports = (.ok (pk.name ++ b! "."), f'.imports)) := by
  obtain ⟨g, g', h1, h2, h3, h4, h5⟩ := qualifyFile_settled (qualifyFile_of_renderFile hr)
  rw [hf] at h1
  rw [hf'] at h2
  obtain rfl := Option.some.inj h1
  obtain rfl := Option.some.inj h2
  obtain ⟨inv', hnames⟩ := ht.after hn h5
  unfold ValidRef
  by_cases ho : pk.importPath = f'.imports.pkgPath
  · rw [if_pos ho]
    by_cases hne : pk.name = []
    · simp [ho, hne]
    · have : pk.name ++ 46 :: name ≠ name := by
        intro hx
        have := congrArg List.length hx
        simp at this
        omega
      simp [ho, hne, this]
  · rw [if_neg ho]
    have hq : ∀ q, ((if pk.name ≠ [] then pk.name ++ b! "." else []) ++ name = q ++ b! "." ++ name) ↔
        pk.name ≠ [] ∧ q = pk.name := by
      intro q
      rw [List.append_cancel_right_eq]
      by_cases hne : pk.name = []
      · simp [hne]
      · rw [if_pos hne, List.append_cancel_right_eq]
        exact ⟨fun h => ⟨hne, h.symm⟩, fun h => h.2.symm⟩
    simp only [hq, resolve_iff inv' hnames, ho, false_and, false_or, ne_eq, not_false_eq_true, true_and]
    constructor
    · rintro ⟨q, ⟨h6, rfl⟩, d, hd, h7⟩
      exact ⟨h6, by rw [prefixFor, prefixForPackage_known ho hd, h7]⟩
    · rintro ⟨h6, h7⟩
      refine ⟨_, ⟨h6, rfl⟩, ?_⟩
      cases hg : f'.imports.importsByPath.get pk.importPath with
      | none => rw [prefixFor, prefixForPackage_unknown ho hg] at h7; simp at h7
      | some d =>
        rw [prefixFor, prefixForPackage_known ho hg] at h7
        simp only [Prod.mk.injEq, Outcome.ok.injEq, and_true] at h7
        exact ⟨d, rfl, List.append_cancel_right h7⟩

/-- C34: and it never imports it for the type's sake: qualifying a constant or variable without
initial value, of a type declared as int (say), leaves the imports as they are. -/
theorem C34_never_registered {fuel : Nat} {h : Heap} {i : Imports} {q r : Ptr} {c : ValueSpec} {t : TypeSpec}
    {k : ReflectKind} (hc : h.values q = some c) (hi : c.init = none) (ht : c.type = .spec r)
    (hr : h.types r = some t) (hu : t.underlying = .basic k) (hs : t.structBody = []) (hb : t.interfaceBody = []) :
    qualifyValue (fuel + 1) q h i = (.ok (), h, i) := by
  refine value_of_settled ⟨c, hc, by simp [ht], ?_, by simp [hi]⟩ (by rintro _ _ _ _ h1 h2; rw [hc] at h1; obtain rfl := Option.some.inj h1; rw [hi] at h2; cases h2)
  rw [ht]
  rintro _ ⟨⟩
  exact ⟨t, hr, by rw [hu]; simp [TypeSettled, TypeName.All], by simp [hs], by simp [hb]⟩

/-- A variable of the type T that is declared in the same file. -/
def exOwnSpec : Heap where
  files p := if p = 0 then some { name := b! "p.go", packageName := b! "p", imports := newImportsFor (b! "x/p")
                                  elements := [.types 1, .values 3] } else none
  typeDecls p := if p = 1 then some { types := [2] } else none
  types p := if p = 2 then some { name := b! "T", underlying := .basic .int, parent := some 0 } else none
  valueDecls p := if p = 3 then some { kind := .var, specs := [4] } else none
  values p := if p = 4 then some { kind := .var, names := [b! "v"], type := .spec 2, parent := some 0 } else none

example : (renderFile exEnv 3 0 exOwnSpec).1 = .ok (b! "package p\n\n\ntype T  int\n\nvar v p.T\n") := by decide

/-- C34 fails: neither of the qualifiers in the file of `exNamed` is imported, and the variable of
`exOwnSpec` is written as `var v p.T` in package p. -/
theorem C34_full_fails : ¬ C34_full := by
  intro hall
  obtain ⟨h1, -⟩ := hall exRealName exEnv 3 0 exNamed (renderFile exEnv 3 0 exNamed).2 _ _ _ rfl
    (exNamed_truthful [] (by simp) rfl) (by rw [← exNamed_text]) rfl
  have hs : NamedSpec (renderFile exEnv 3 0 exNamed).2 2 (b! "T") ⟨b! "x/q", b! "q"⟩ :=
    ⟨_, 1, _, rfl, rfl, by decide, rfl, rfl, rfl⟩
  obtain ⟨w, -, hw⟩ := h1 3 _ 6 _ 2 _ _ (by decide) rfl (List.mem_singleton.2 rfl) rfl rfl hs
  rw [ValidRef, if_neg (by decide)] at hw
  obtain ⟨q, -, hq⟩ := hw
  have hnil : resolveQualifier exRealName [] q = [b! "x/q"] := hq
  simp [resolveQualifier] at hnil

/-- The same for the field. -/
theorem C34_full_fails_for_fields : ¬ ∀ (realName : GoString → GoString) (env : Env) (fuel : Nat) (p : Ptr) (h h' : Heap)
  (f f' : GoFile) (text : GoString), h.files p = some f → TruthfulInput realName h f →
  renderFile env fuel p h = (.ok text, h') → h'.files p = some f' →
    ∀ d td q ts x fs r name pk, .types d ∈ f'.elements → h'.typeDecls d = some td → q ∈ td.types →
      h'.types q = some ts → x ∈ ts.structBody → h'.fields x = some fs → fs.type = .spec r →
      NamedSpec h' r name pk →
        ∃ w, (∀ sub, FieldSpec.text env h' sub { name := fs.name, type := .spec r } =
            .ok ((if fs.name ≠ [] then fs.name ++ b! " " else []) ++ w ++ b! "\n")) ∧
          ValidRef realName f' pk.importPath name w := by
  intro hall
  have h1 := hall exRealName exEnv 3 0 exNamed (renderFile exEnv 3 0 exNamed).2 _ _ _ rfl
    (exNamed_truthful [] (by simp) rfl) (by rw [← exNamed_text]) rfl
  have hs : NamedSpec (renderFile exEnv 3 0 exNamed).2 2 (b! "T") ⟨b! "x/q", b! "q"⟩ :=
    ⟨_, 1, _, rfl, rfl, by decide, rfl, rfl, rfl⟩
  obtain ⟨w, -, hw⟩ := h1 7 _ 8 _ 9 _ 2 _ _ (by decide) rfl (List.mem_singleton.2 rfl) rfl
    (List.mem_singleton.2 rfl) rfl rfl hs
  rw [ValidRef, if_neg (by decide)] at hw
  obtain ⟨q, -, hq⟩ := hw
  have hnil : resolveQualifier exRealName [] q = [b! "x/q"] := hq
  simp [resolveQualifier] at hnil

/-! A case in which the reference is valid: `exNamedImported`, where the file already imports x/q as q. -/

end Gopoet
