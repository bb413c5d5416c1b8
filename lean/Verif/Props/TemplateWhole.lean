import Verif.Proof.TemplateWhole
import Verif.Props.FileMeaning
import Verif.Props.RefMeaning
/-! Property C77: files that are written by a template alone import what the template refers to. -/

namespace Gopoet
open Imports

/-- C77: `ImportSpec.String` gives what follows `import` in the statement that files have. -/
theorem C77_statement (tbl : Nat → Bool) (s : ImportSpec) :
    s.statement tbl = b! "import " ++ s.string tbl ++ b! "\n" := by
  rw [ImportSpec.statement, ImportSpec.string]
  by_cases h0 : s.packageAlias = [] <;> simp [h0]

/-- C77: the text of an import spec is read as the import of this path with this name, if there is none or it is an identifier. -/
theorem C77_string_reads (tbl : Nat → Bool) {s : ImportSpec} (h : s.packageAlias = [] ∨ isIdent s.packageAlias = true) :
    ∃ toks, lex (s.string tbl) = some toks ∧
      parseImportSpec toks = some (⟨if s.packageAlias = [] then none else some s.packageAlias, s.importPath⟩, []) := by
  have := (lex_spec (tbl := tbl) h [] [] trivial Lex.nil).lex
  rw [List.append_nil, List.append_nil] at this
  refine ⟨_, this, ?_⟩
  have := parse_spec (s := s) []
  rw [List.append_nil] at this
  rw [this, ImportSpec.syn, optName]

/-- C77: so different import specs have different texts. -/
theorem C77_string_different (tbl : Nat → Bool) {s t : ImportSpec} (hs : s.packageAlias = [] ∨ isIdent s.packageAlias = true)
    (ht : t.packageAlias = [] ∨ isIdent t.packageAlias = true) (h : s.string tbl = t.string tbl) : s = t := by
  obtain ⟨ts, h1, h2⟩ := C77_string_reads tbl hs
  obtain ⟨tt, h3, h4⟩ := C77_string_reads tbl ht
  rw [h, h3, Option.some.injEq] at h1
  subst h1
  rw [h4] at h2
  have h5 : t.syn = s.syn := by
    simp only [Option.some.injEq, Prod.mk.injEq, and_true] at h2
    exact h2
  rw [← syn_spec s, ← syn_spec t, h5]

/-- C77: a file that consists of what a template writes for the import specs and the qualified data is read, if the body
is read as declarations, as a file with these declarations that imports the packages of the `Imports`, in order. What is
written in the body for a reference refers, by the import declaration of the file, to what the reference stood for, if
and only if nothing in it is hidden. -/
theorem C77_whole_file {tbl : Nat → Bool} {shows : TVal → Shown} {sc : Scalars} {own : GoString} {realName : GoString → GoString}
    {decls : List GoString} {before later : List Call} {h g : Heap} {j : Imports} {v v' : TVal} {body : List TNode}
    {s name : GoString} {id : GoString → Nat} {ds : List DeclSyn}
    (hv : (TVal.iface acceptsAll v).validTypes = true)
    (hn : NamesGiven realName (before ++ later) ((TVal.iface acceptsAll v).mentions h))
    (hfl : (TVal.iface acceptsAll v).flatIfaces = true)
    (hq : qualifyTemplateData h v ((newImportsFor own).after before) = (.ok v', j)) (hp : v.Preserved h j.qualifierOf)
    (hg : SpecNamesStay h g) (hs : templateMeans tbl shows sc h (j.after later) body v = some s)
    (hr : ∀ x ∈ showsNodes sc body (.start v), x.2.ShownRight tbl shows h j x.1)
    (hstr : ∀ s ∈ (j.after later).importSpecs, shows (s.value id) = .str (s.string tbl))
    (hname : isIdent name = true) (hd : parseDeclarations s = some ds) :
    ∃ text head src, execute tbl shows sc g (wholeFile name body) (wholeData id (j.after later).importSpecs v') = some text ∧
      text = head ++ s ∧ parseGoFile text = some src ∧ src.package = name ∧ src.decls = ds ∧
      src.imports.map (·.path) = (j.after later).importedPaths ∧
      ∀ x ∈ showsNodes sc body (.start v), ∀ r, x.2.ref h x.1 = some r → r.wellNamed = true →
        ∃ w, x.2.means tbl shows h (j.after later) x.1 = some w ∧
          ((src.scope own decls realName).Means w r ↔ (src.scope own decls realName).Visible r) := by
  have hex := C61_template_partial ⟨own, before, rfl⟩ hv hfl hq hp hg later hs hr
  have hnames := mentions_hasName hq
  obtain rfl := C42_imports hq
  obtain ⟨inv, htn, hident, hm⟩ := hn.final (own := own)
  have hspecs : ∀ p ∈ ((((newImportsFor own).after before).after
      (registerAll ((TVal.iface acceptsAll v).mentions h))).after later).importSpecs, p.nameable := by
    intro p hp
    by_cases h0 : p.packageAlias = []
    · exact .inl h0
    · have := hident p hp
      rw [ImportSpec.binds, if_neg h0] at this
      exact .inr this
  have hown : ((((newImportsFor own).after before).after
      (registerAll ((TVal.iface acceptsAll v).mentions h))).after later).pkgPath = own :=
    ((evolves_after later _).ext.own.trans (after_registerAll _ _).ext.own).trans (evolves_after before _).ext.own
  refine ⟨_, _, _, whole_executes hstr hex, rfl, whole_parses hname hspecs hd, rfl, rfl, ?_, ?_⟩
  · rw [List.map_map]; rfl
  · intro x hx r href hw
    obtain ⟨hvx, hmx⟩ := showsNodes_ok (h := h) body (σ := .start v) (fun x hx => by
      simp only [TScope.start, List.mem_cons, List.not_mem_nil, or_false, or_self] at hx
      subst hx
      exact ⟨hv, hnames.2⟩) x hx
    obtain ⟨r1, r2⟩ := ref_part h x.2 x.1 href
    obtain ⟨w, h1, h2⟩ := text_means_iff tbl (decls := decls) inv htn
      (fun p hp => (hmx p (r2 (hr x hx).1 p hp)).later (evolves_after later _).ext) (r1 hvx) hw hident
    refine ⟨w, ?_, ?_⟩
    · rw [TVal.means, href]
      simp only [h1]
    · have hsc := scope_syn ((((newImportsFor own).after before).after
        (registerAll ((TVal.iface acceptsAll v).mentions h))).after later) name ds decls realName
      rw [hown] at hsc
      rw [hsc]
      exact h2

/-! ### An example -/

/-- `{{range $n, $t := .}}var V{{$n}} {{$t}}
{{end}}` -/
def exWholeBody : List TNode :=
  [.range ⟨none, []⟩ [.text (b! "var V"), .show ⟨some 1, []⟩, .text (b! " "), .show ⟨none, []⟩, .text (b! "\n")] []]

/-- Types of two packages with the same name. -/
def exWholeTypes : TVal := .slice [
  .iface acceptsAll (.typeName (.ptr (.named ⟨⟨b! "y/q", b! "q"⟩, b! "A"⟩))),
  .iface acceptsAll (.typeName (.slice (.named ⟨⟨b! "x/q", b! "q"⟩, b! "B"⟩)))]

/-- Strings by number. -/
def exWholeStrings : List GoString := [[], b! "q1", b! "x/q", b! "y/q"]

/-- see `exWholeStrings` -/
def exWholeId (s : GoString) : Nat := exWholeStrings.idxOf s

/-- Numbers are written in decimal, import specs by their `String` method. -/
def exWholeOwn : TVal → Shown
  | .scalar n => .int n
  | .struct [(_, .scalar a), (_, .scalar p)] =>
    .str (ImportSpec.string (fun _ => true) ⟨exWholeStrings.getD a [], exWholeStrings.getD p []⟩)
  | _ => .other

/-- The imports after the qualification. -/
def exWholeImports : Imports := (qualifyTemplateData {} exWholeTypes (newImportsFor (b! "x/p"))).2

/-- The whole file. -/
example : ((qualifyTemplateData {} exWholeTypes (newImportsFor (b! "x/p"))).1.bind fun d =>
    .ok (execute (fun _ => true) exWholeOwn exScalars {} (wholeFile (b! "p") exWholeBody)
      (wholeData exWholeId exWholeImports.importSpecs d))) =
    .ok (some (b! "package p\n\nimport (\n\tq1 \"x/q\"\n\t\"y/q\"\n)\n\nvar V0 *q.A\nvar V1 []q1.B\n")) := by
  decide +kernel

/-- The specs have to be got after the data has been qualified: before, there is nothing to import. -/
example : (newImportsFor (b! "x/p")).importSpecs = [] ∧
    exWholeImports.importSpecs = [⟨b! "q1", b! "x/q"⟩, ⟨[], b! "y/q"⟩] := by decide +kernel

example : ImportSpec.string (fun _ => true) ⟨[], b! "a/\"b\""⟩ = b! "\"a/\\\"b\\\"\"" := by decide +kernel
example : ImportSpec.string (fun _ => true) ⟨b! "c", b! "a/b"⟩ = b! "c \"a/b\"" := by decide +kernel

/-- The theorem applies: the types that are shown mean those of the packages `y/q` and `x/q`. -/
example : ∃ text src, execute (fun _ => true) exWholeOwn exScalars {} (wholeFile (b! "p") exWholeBody)
      (wholeData exWholeId exWholeImports.importSpecs (.slice [
        .iface acceptsAll (.typeName (.ptr (.named ⟨⟨b! "y/q", b! "q"⟩, b! "A"⟩))),
        .iface acceptsAll (.typeName (.slice (.named ⟨⟨b! "x/q", b! "q1"⟩, b! "B"⟩)))])) = some text ∧
    parseGoFile text = some src ∧ src.imports.map (·.path) = [b! "x/q", b! "y/q"] ∧
    (src.scope (b! "x/p") [] fun _ => b! "q").typeMeaning (b! "[]q1.B") = some (.slice (.name (.declared (b! "x/q") (b! "B")))) := by
  have hq : qualifyTemplateData {} exWholeTypes ((newImportsFor (b! "x/p")).after []) = (.ok (.slice [
        .iface acceptsAll (.typeName (.ptr (.named ⟨⟨b! "y/q", b! "q"⟩, b! "A"⟩))),
        .iface acceptsAll (.typeName (.slice (.named ⟨⟨b! "x/q", b! "q1"⟩, b! "B"⟩)))]), exWholeImports) := by rfl
  have hsh : showsNodes exScalars exWholeBody (.start exWholeTypes) =
      [(false, .scalar 0), (true, .iface acceptsAll (.typeName (.ptr (.named ⟨⟨b! "y/q", b! "q"⟩, b! "A"⟩)))),
        (false, .scalar 1), (true, .iface acceptsAll (.typeName (.slice (.named ⟨⟨b! "x/q", b! "q"⟩, b! "B"⟩))))] := by rfl
  have hr : ∀ x ∈ showsNodes exScalars exWholeBody (.start exWholeTypes),
      x.2.ShownRight (fun _ => true) exWholeOwn {} exWholeImports x.1 := by
    intro x hx
    rw [hsh] at hx
    simp only [List.mem_cons, List.not_mem_nil, or_false] at hx
    rcases hx with rfl | rfl | rfl | rfl <;> exact ⟨rfl, fun h => absurd h (by decide)⟩
  have hstr : ∀ s ∈ exWholeImports.importSpecs, exWholeOwn (s.value exWholeId) = .str (s.string fun _ => true) := by
    have : exWholeImports.importSpecs = [⟨b! "q1", b! "x/q"⟩, ⟨[], b! "y/q"⟩] := by decide +kernel
    rw [this]
    decide +kernel
  obtain ⟨text, head, src, h1, h2, h3, h4, h5, h6, h7⟩ := C77_whole_file (realName := fun _ => b! "q") (decls := [])
    (later := []) (g := {}) (s := b! "var V0 *q.A\nvar V1 []q1.B\n") (name := b! "p") (by rfl)
    ⟨fun _ hc => by simp at hc, by
      intro p hp
      have : (TVal.iface acceptsAll exWholeTypes).mentions {} = [⟨b! "y/q", b! "q"⟩, ⟨b! "x/q", b! "q"⟩] := by rfl
      rw [this] at hp
      simp only [List.mem_cons, List.not_mem_nil, or_false] at hp
      rcases hp with rfl | rfl <;> exact .inr rfl, fun _ => by decide⟩ (by rfl) hq
    ⟨trivial, trivial, trivial⟩ (.refl _) (by rfl) hr hstr (by decide) (by rfl)
  refine ⟨text, src, h1, h3, h6.trans (by decide +kernel), ?_⟩
  obtain ⟨w, h8, h9⟩ := h7 (true, .iface acceptsAll (.typeName (.slice (.named ⟨⟨b! "x/q", b! "q"⟩, b! "B"⟩))))
    (by rw [hsh]; simp) _ rfl (by rfl)
  have hw : w = b! "[]q1.B" := by
    have : (TVal.iface acceptsAll (.typeName (.slice (.named ⟨⟨b! "x/q", b! "q"⟩, b! "B"⟩)))).means (fun _ => true) exWholeOwn {}
      (exWholeImports.after []) true = some (b! "[]q1.B") := by rfl
    exact Option.some.inj (h8.symm.trans this)
  subst hw
  have hsy : (TypeName.slice (.named ⟨⟨b! "x/q", b! "q"⟩, b! "B"⟩)).symbols = [⟨⟨b! "x/q", b! "q"⟩, b! "B"⟩] := rfl
  refine h9.2 ⟨rfl, fun s hs _ ho => ?_, fun s hs hb => ?_, fun _ hk => (nomatch hk), fun s hs hb => ?_, fun _ hk => (nomatch hk)⟩
  all_goals
    rw [hsy, List.mem_singleton] at hs
    subst hs
  · exact absurd ho (by simp [SourceFile.scope])
  · exact absurd hb (by simp)
  · exact absurd hb (by simp [SourceFile.scope])

end Gopoet
