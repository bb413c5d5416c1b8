import Verif.Proof.TemplateFile
import Verif.Props.FileNames
/-! Properties C61 and C66 for the templates in files that are written. -/

namespace Gopoet
open Imports

theorem SameNames.specNames {h h' : Heap} (a : SameNames h h') : SpecNamesStay h h' := by
  refine ⟨fun p c hc => ?_, fun p t hc => ?_, fun p f hc => ?_, fun p f hc => ?_⟩
  · obtain ⟨x, h1, h2⟩ := map_eq_some' (a.values p) hc
    exact ⟨x, h1, congrArg (·.1) h2, congrArg (·.2) h2⟩
  · obtain ⟨x, h1, h2⟩ := map_eq_some' (a.types p) hc
    exact ⟨x, h1, congrArg (·.1) h2, congrArg (·.2) h2⟩
  · obtain ⟨x, h1, h2⟩ := map_eq_some' (a.funcs p) hc
    exact ⟨x, h1, congrArg (·.1) h2, congrArg (·.2.1) h2, congrArg (·.2.2) h2⟩
  · exact map_eq_some' (a.files p) hc

theorem Later.specNames {h i h' i'} (a : Later h i h' i') : SpecNamesStay h h' := a.sameNames.specNames

theorem TemplateIn.kept {h h' : Heap} (s : KeepsCode h h') {e : FileElem} {q : Ptr} (ht : TemplateIn h e q) : TemplateIn h' e q := by
  cases ht with
  | init h1 h2 h3 h4 h5 h6 =>
    obtain ⟨c, g1, g2⟩ := s.values _ _ h3
    exact .init (s.valueDecls ▸ h1) h2 g1 (g2.trans h4) (s.blocks ▸ h5) h6
  | func h1 h2 =>
    obtain ⟨c, g1, g2⟩ := s.funcs _ _ h1
    exact .func g1 (g2 ▸ h2)

theorem ElemSettled.templ {fuel h i e q} (hs : ElemSettled fuel h i e) (ht : TemplateIn h e q) :
    ∃ t, h.templs q = some t ∧ TemplDone h i t.data := by
  cases ht with
  | init h1 h2 h3 h4 h5 h6 =>
    obtain ⟨d, g1, g2⟩ := hs
    rw [h1] at g1
    cases g1
    obtain ⟨c, k1, -, -, k2⟩ := g2 _ h2
    rw [h3] at k1
    cases k1
    obtain ⟨cb, m1, m2⟩ := k2 _ h4
    rw [h5] at m1
    cases m1
    exact m2 _ h6
  | func h1 h2 =>
    obtain ⟨f, g1, -, g2⟩ := hs
    rw [h1] at g1
    cases g1
    exact g2 _ h2

/-- What the data of a template is in the end. -/
theorem templ_final {h i h' i'} (s : Later h i h' i') {q : Ptr} {n : Nat} {v : TVal} (hq : h.templs q = some ⟨n, v⟩)
    (hs : ∃ t, h'.templs q = some t ∧ TemplDone h' i' t.data) (hv : (TVal.iface acceptsAll v).validTypes = true)
    (hfl : (TVal.iface acceptsAll v).flatIfaces = true) (hcn : v.copyNames = []) (hc : NoCopyAgain v i') :
    ∃ d, h'.templs q = some ⟨n, d⟩ ∧ (∀ p ∈ (TVal.iface acceptsAll v).mentions h, HasName i' p) ∧
      ((TVal.iface acceptsAll v).requalify h i'.qualifierOf = .iface acceptsAll d ↔ v.Preserved h i'.qualifierOf) := by
  obtain ⟨d, h1, h2⟩ := templ_later s hq hc
  refine ⟨d, h1, ?_⟩
  have : ∃ g i0 j, SameNames h g ∧ Ext j i' ∧ qualifyTemplateData g v i0 = (.ok d, j) := by
    rcases h2 with rfl | h2
    · obtain ⟨t, g1, g2⟩ := hs
      rw [h1] at g1
      cases g1
      exact ⟨h', i', i', s.sameNames, .refl _, g2.1 _ _ (.refl _) (.refl _) (by rw [hcn]; intro n hn; cases hn)⟩
    · exact h2.from_
  obtain ⟨g, i0, j, g1, g2, g3⟩ := this
  have hm : ∀ p ∈ (TVal.iface acceptsAll v).mentions h, HasName j p := by
    rw [← mentions_congr g1.package]
    exact (mentions_hasName g3).2
  have hna : NamesAgree i'.qualifierOf j.qualifierOf ((TVal.iface acceptsAll v).mentions h) :=
    fun p hp => (hm p hp).qualifierOf g2
  refine ⟨fun p hp => (hm p hp).later g2, ?_⟩
  rw [requalify_congr g1.package _ hna, preserved_congr g1.package v hna]
  exact C42_result_iff_partial hv hfl g3

/-- When the packages in a file have been qualified, every template in the code gives the text that it should have. -/
theorem template_qualified {tbl : Nat → Bool} {fuel : Nat} {p : Ptr} {h h' : Heap} {f f' : GoFile}
    (hf : h.files p = some f) (hi : Reachable f.imports) (hr : qualifyFile fuel p h = (.ok (), h'))
    (hf' : h'.files p = some f') {e : FileElem} (he : e ∈ f.elements) {q : Ptr} (ht : TemplateIn h e q) {n : Nat} {v : TVal}
    (hq : h.templs q = some ⟨n, v⟩) (hv : (TVal.iface acceptsAll v).validTypes = true)
    (hfl : (TVal.iface acceptsAll v).flatIfaces = true) (hcn : v.copyNames = []) (hc : NoCopyAgain v f'.imports)
    (hp : v.Preserved h f'.imports.qualifierOf) :
    ∃ d, h'.templs q = some ⟨n, d⟩ ∧ ∀ own sc (t : List TNode) s,
      templateMeans tbl own sc h f'.imports t v = some s →
      (∀ x ∈ showsNodes sc t (.start v), x.2.ShownRight tbl own h f'.imports x.1) →
      execute tbl own sc h' t d = some s := by
  obtain ⟨g, g', h1, h2, h3, h4, h5⟩ := qualifyFile_settled hr
  rw [hf] at h1
  rw [hf'] at h2
  obtain rfl := Option.some.inj h1
  obtain rfl := Option.some.inj h2
  obtain ⟨d, k1, k2, k3⟩ := templ_final h5 hq ((h4 e (by rw [h3]; exact he)).templ (ht.kept h5.keepsCode)) hv hfl hcn hc
  refine ⟨d, k1, fun own sc t s hs hsr => ?_⟩
  have hinv := h5.inv hi.inv
  have := runNodes_means h5.specNames hinv hinv (.refl _) t (σ := .start v)
    (fun x hx => by
      simp only [TScope.start, List.mem_cons, List.not_mem_nil, or_false, or_self] at hx
      subst hx
      exact ⟨hv, k2⟩) hs hsr
  simp only [TScope.requalify, TScope.start, List.map_cons, List.map_nil, k3.2 hp] at this
  exact this

/-- C61 for files: in a file that is written, every template in the code gives the text that it should have, with the
names of the packages in the imports of the file, even if it is shared and qualified several times. (See
`C61_shown_partial` for what is missing. A spec in data that is qualified more than once is a problem: see
`C31_full_fails`.) -/
theorem C61_file_partial {env : Env} {fuel : Nat} {p : Ptr} {h h' : Heap} {f f' : GoFile} {text : GoString}
    (hf : h.files p = some f) (hi : Reachable f.imports) (hr : renderFile env fuel p h = (.ok text, h'))
    (hf' : h'.files p = some f') {e : FileElem} (he : e ∈ f.elements) {q : Ptr} (ht : TemplateIn h e q) {n : Nat} {v : TVal}
    (hq : h.templs q = some ⟨n, v⟩) (hv : (TVal.iface acceptsAll v).validTypes = true)
    (hfl : (TVal.iface acceptsAll v).flatIfaces = true) (hcn : v.copyNames = []) (hc : NoCopyAgain v f'.imports)
    (hp : v.Preserved h f'.imports.qualifierOf) :
    ∃ d, h'.templs q = some ⟨n, d⟩ ∧ ∀ own sc (t : List TNode) s,
      templateMeans env.isPrint own sc h f'.imports t v = some s →
      (∀ x ∈ showsNodes sc t (.start v), x.2.ShownRight env.isPrint own h f'.imports x.1) →
      execute env.isPrint own sc h' t d = some s := by
  exact template_qualified hf hi (qualifyFile_of_renderFile hr) hf' he ht hq hv hfl hcn hc hp

/-- C61 for files: so the code that is written for the template is that text, if the template consists of the parts. -/
theorem C61_file_code_partial {env : Env} {own : TVal → Shown} {sc : Scalars} {fuel : Nat} {p : Ptr} {h h' : Heap} {f f' : GoFile}
    {text : GoString}
    (hf : h.files p = some f) (hi : Reachable f.imports) (hr : renderFile env fuel p h = (.ok text, h'))
    (hf' : h'.files p = some f') {e : FileElem} (he : e ∈ f.elements) {q : Ptr} (ht : TemplateIn h e q) {n : Nat} {v : TVal}
    (hq : h.templs q = some ⟨n, v⟩) (hv : (TVal.iface acceptsAll v).validTypes = true)
    (hfl : (TVal.iface acceptsAll v).flatIfaces = true) (hcn : v.copyNames = []) (hc : NoCopyAgain v f'.imports)
    (hp : v.Preserved h f'.imports.qualifierOf) {t : List TNode} {s : GoString}
    (henv : ∀ g d, env.exec g n d = execute env.isPrint own sc g t d)
    (hs : templateMeans env.isPrint own sc h f'.imports t v = some s)
    (hsr : ∀ x ∈ showsNodes sc t (.start v), x.2.ShownRight env.isPrint own h f'.imports x.1) :
    CodeElem.text env h' (.templ q) = .ok s := by
  obtain ⟨d, h1, h2⟩ := C61_file_partial hf hi hr hf' he ht hq hv hfl hcn hc hp
  rw [CodeElem.text]
  simp only [deref, h1]
  simp [henv, h2 own sc t s hs hsr]

/-- A value in the data of a template, in a file that is written, is shown as the text of what it stands for. -/
theorem template_file_text {realName : GoString → GoString} {env : Env} {fuel : Nat} {p : Ptr}
    {h h' : Heap} {f f' : GoFile} {text : GoString} (hf : h.files p = some f) (htr : TruthfulInput realName h f)
    (hr : renderFile env fuel p h = (.ok text, h')) (hf' : h'.files p = some f')
    (hne : [] ∉ f'.imports.importedPaths) {e : FileElem} (he : e ∈ f.elements) {q : Ptr} (ht : TemplateIn h e q) {n : Nat} {v : TVal}
    (hq : h.templs q = some ⟨n, v⟩) (hv : (TVal.iface acceptsAll v).validTypes = true)
    (hfl : (TVal.iface acceptsAll v).flatIfaces = true) (hcn : v.copyNames = []) (hc : v.noSpecs = true ∨ f.imports.pkgPath ≠ [])
    (hp : v.Preserved h f'.imports.qualifierOf) (own : TVal → Shown) {path : List TStep} {a : Bool} {w : TVal} {r : Reference}
    (hfo : (TVal.iface acceptsAll v).follow false path = some (a, w)) (hw : w.ref h a = some r)
    (hsh : w.ShownRight env.isPrint own h f'.imports a) :
    (∀ p ∈ r.mentions, HasName f'.imports p) ∧ r.valid ∧
    ∃ d w' s, h'.templs q = some ⟨n, d⟩ ∧ (TVal.iface acceptsAll d).follow false path = some (a, w') ∧
      w'.shown env.isPrint own h' a = .str s ∧ r.text env.isPrint f'.imports = .ok s := by
  obtain ⟨g, g', h1, h2, h3, h4, h5⟩ := qualifyFile_settled (qualifyFile_of_renderFile hr)
  rw [hf] at h1
  rw [hf'] at h2
  obtain rfl := Option.some.inj h1
  obtain rfl := Option.some.inj h2
  have hca : NoCopyAgain v f'.imports := hc.imp id fun h => ⟨hne, by rw [h5.ext.own]; exact h⟩
  obtain ⟨d, k1, k2, k3⟩ := templ_final h5 hq ((h4 e (by rw [h3]; exact he)).templ (ht.kept h5.keepsCode)) hv hfl hcn hca
  have hnc : NoCopyImported h f'.imports := .inr hne
  obtain ⟨inv', htn⟩ := htr.after hnc h5
  obtain ⟨p1, p2⟩ := part_follow h path hfo
  obtain ⟨r1, r2⟩ := ref_part h w a hw
  have hm : ∀ p ∈ w.mentions h, HasName f'.imports p := fun p hp => k2 p (p2 p hp)
  obtain ⟨s', t1, t2⟩ := (shown_iff env.isPrint own h5.specNames inv' hw (p1 hv) hm).2 hsh _ inv' (.refl _)
  have hfo' := follow_requalify h f'.imports.qualifierOf path hfo
  rw [k3.2 hp] at hfo'
  exact ⟨fun p hp => hm p (r2 hsh.1 p hp), r1 (p1 hv), d, _, s', k1, hfo', t2, t1⟩

/-- What is known about the imports of a file that was written. -/
theorem imports_after {realName : GoString → GoString} {env : Env} {fuel : Nat} {p : Ptr}
    {h h' : Heap} {f f' : GoFile} {text : GoString} (hf : h.files p = some f) (htr : TruthfulInput realName h f)
    (hi : NameableInput h f) (hr : renderFile env fuel p h = (.ok text, h')) (hf' : h'.files p = some f')
    (hne : [] ∉ f'.imports.importedPaths) :
    Inv f'.imports ∧ TrueNames realName f'.imports ∧ ∀ s ∈ f'.imports.importSpecs, isIdent (s.binds realName) = true := by
  obtain ⟨g, g', h1, h2, h3, h4, h5⟩ := qualifyFile_settled (qualifyFile_of_renderFile hr)
  rw [hf] at h1
  rw [hf'] at h2
  obtain rfl := Option.some.inj h1
  obtain rfl := Option.some.inj h2
  have hnc : NoCopyImported h f'.imports := .inr hne
  obtain ⟨inv', htn⟩ := htr.after hnc h5
  exact ⟨inv', htn, binds_ident inv' htn (h5.ident hi.state hnc.get).names hne⟩

/-- C66 for the templates in files: a value in the data of a template, in a file that is written, is shown as a text that
refers in the file to what it stood for before anything was qualified, if and only if nothing in it is hidden. What is
missing from the full property: see `C61_shown_partial`. -/
theorem C66_template_file_iff_partial {realName : GoString → GoString} {decls : List GoString} {env : Env} {fuel : Nat} {p : Ptr}
    {h h' : Heap} {f f' : GoFile} {text : GoString} (hf : h.files p = some f) (htr : TruthfulInput realName h f)
    (hi : NameableInput h f) (hr : renderFile env fuel p h = (.ok text, h')) (hf' : h'.files p = some f')
    (hne : [] ∉ f'.imports.importedPaths) {e : FileElem} (he : e ∈ f.elements) {q : Ptr} (ht : TemplateIn h e q) {n : Nat} {v : TVal}
    (hq : h.templs q = some ⟨n, v⟩) (hv : (TVal.iface acceptsAll v).validTypes = true)
    (hfl : (TVal.iface acceptsAll v).flatIfaces = true) (hcn : v.copyNames = []) (hc : v.noSpecs = true ∨ f.imports.pkgPath ≠ [])
    (hp : v.Preserved h f'.imports.qualifierOf) (own : TVal → Shown) {path : List TStep} {a : Bool} {w : TVal} {r : Reference}
    (hfo : (TVal.iface acceptsAll v).follow false path = some (a, w)) (hw : w.ref h a = some r) (hwn : r.wellNamed = true)
    (hsh : w.ShownRight env.isPrint own h f'.imports a) :
    ∃ d w' s, h'.templs q = some ⟨n, d⟩ ∧ (TVal.iface acceptsAll d).follow false path = some (a, w') ∧
      w'.shown env.isPrint own h' a = .str s ∧
      ((f'.imports.scope decls realName).Means s r ↔ (f'.imports.scope decls realName).Visible r) := by
  obtain ⟨hm, hv', d, w', s, h1, h2, h3, h4⟩ := template_file_text hf htr hr hf' hne he ht hq hv hfl hcn hc hp own hfo hw hsh
  obtain ⟨inv', htn, hident⟩ := imports_after hf htr hi hr hf' hne
  obtain ⟨s', hs, hiff⟩ := text_means_iff env.isPrint (decls := decls) inv' htn hm hv' hwn hident
  rw [h4] at hs
  cases hs
  exact ⟨d, w', s, h1, h2, h3, hiff⟩

/-! ### An example -/

/-- `{{range .}}{{.}}(){{else}}none{{end}}` -/
def exCallEach : List TNode := [.range ⟨none, []⟩ [.show ⟨none, []⟩, .text (b! "()\n")] [.text (b! "none")]]

/-- The packages text/template and go/format for a program with that template only. -/
def exTemplEnv : Env where
  isPrint _ := true
  fmtOther _ f _ := f
  exec h _ d := execute (fun _ => true) exOwnTexts exScalars h exCallEach d
  format s := if s = [] then none else some s

/-- Functions of two packages that are both called `q`, and one of the package of the file. -/
def exCallData : TVal := .slice [.symbol ⟨⟨b! "x/q", b! "q"⟩, b! "A"⟩, .symbol ⟨⟨b! "y/q", b! "q"⟩, b! "B"⟩,
  .symbol ⟨⟨b! "x/p", b! "p"⟩, b! "G"⟩]

/-- A file with two functions; both contain the same template. -/
def exTemplFile : Heap where
  files p := if p = 0 then some { name := b! "p.go", packageName := b! "p", imports := newImportsFor (b! "x/p")
                                  elements := [.func 1, .func 2] } else none
  funcs p := if p = 1 then some { name := b! "F", parent := some 0, code := [.templ 3] }
    else if p = 2 then some { name := b! "G", parent := some 0, code := [.templ 3] } else none
  templs p := if p = 3 then some ⟨0, exCallData⟩ else none

def exTemplText : GoString :=
  b! "package p\n\nimport \"x/q\"\nimport q1 \"y/q\"\n\nfunc F() {\nq.A()\nq1.B()\nG()\n}\n\nfunc G() {\nq.A()\nq1.B()\nG()\n}\n"

theorem exTempl_written : (renderFile exTemplEnv 3 0 exTemplFile).1 = .ok exTemplText := by decide +kernel

/-- The theorem applies to the template, from either function. -/
example : CodeElem.text exTemplEnv (renderFile exTemplEnv 3 0 exTemplFile).2 (.templ 3) = .ok (b! "q.A()\nq1.B()\nG()\n") := by
  obtain ⟨f', hf'⟩ : ∃ f', (renderFile exTemplEnv 3 0 exTemplFile).2.files 0 = some f' := ⟨_, rfl⟩
  refine C61_file_code_partial (own := exOwnTexts) (sc := exScalars) (fuel := 3) (p := 0) (h := exTemplFile) (f' := f') (n := 0)
    (v := exCallData) (e := .func 2) (t := exCallEach) (text := exTemplText) rfl ⟨b! "x/p", [], rfl⟩ (by rw [← exTempl_written]) hf'
    (by decide) (.func rfl (List.mem_singleton.2 rfl)) rfl (by rfl) (by rfl) (by rfl) (.inl (by rfl))
    ⟨trivial, trivial, trivial, trivial⟩ (fun _ _ => rfl) ?_ ?_
  · have : ((renderFile exTemplEnv 3 0 exTemplFile).2.files 0).bind (fun f => templateMeans exTemplEnv.isPrint exOwnTexts exScalars
        exTemplFile f.imports exCallEach exCallData) = some (b! "q.A()\nq1.B()\nG()\n") := by decide +kernel
    rw [hf'] at this
    exact this
  · intro x hx
    have hsh : showsNodes exScalars exCallEach (.start exCallData) = [(true, .symbol ⟨⟨b! "x/q", b! "q"⟩, b! "A"⟩),
      (true, .symbol ⟨⟨b! "y/q", b! "q"⟩, b! "B"⟩), (true, .symbol ⟨⟨b! "x/p", b! "p"⟩, b! "G"⟩)] := by rfl
    rw [hsh] at hx
    simp only [List.mem_cons, List.not_mem_nil, or_false] at hx
    rcases hx with rfl | rfl | rfl <;> exact ⟨rfl, fun h => absurd h (by decide)⟩

theorem exTempl_mentioned {pk : Package} (hm : Mentioned exTemplFile pk) :
    pk = ⟨b! "x/q", b! "q"⟩ ∨ pk = ⟨b! "y/q", b! "q"⟩ ∨ pk = ⟨b! "x/p", b! "p"⟩ := by
  cases hm with
  | file h =>
    simp only [exTemplFile] at h
    split at h
    · cases h; decide
    · simp at h
  | func h h2 =>
    simp only [exTemplFile] at h
    split at h
    · cases h; revert h2; simp [Signature.symbols, symbolsArgs]
    · split at h
      · cases h; revert h2; simp [Signature.symbols, symbolsArgs]
      · simp at h
  | templ h h2 =>
    simp only [exTemplFile] at h
    split at h
    · cases h
      have : (TVal.iface acceptsAll exCallData).packages = [⟨b! "x/q", b! "q"⟩, ⟨b! "y/q", b! "q"⟩, ⟨b! "x/p", b! "p"⟩] := by rfl
      simpa [this] using h2
    · simp at h
  | arg h => simp [exTemplFile] at h
  | value h => simp [exTemplFile] at h
  | type h => simp [exTemplFile] at h
  | field h => simp [exTemplFile] at h
  | embed h => simp [exTemplFile] at h
  | method h => simp [exTemplFile] at h

/-- What the template shows for the second element refers in the file to `B` of y/q. -/
example : ∃ d w s i, (renderFile exTemplEnv 3 0 exTemplFile).2.templs 3 = some ⟨0, d⟩ ∧
    (TVal.iface acceptsAll d).follow false [.elem 1] = some (true, w) ∧
    w.shown exTemplEnv.isPrint exOwnTexts (renderFile exTemplEnv 3 0 exTemplFile).2 true = .str s ∧
    ((renderFile exTemplEnv 3 0 exTemplFile).2.files 0).map (·.imports) = some i ∧
    (i.scope [b! "F", b! "G"] exRealName).Means s (.symbol ⟨⟨b! "y/q", b! "q"⟩, b! "B"⟩) := by
  let f : GoFile := { name := b! "p.go", packageName := b! "p", imports := newImportsFor (b! "x/p")
                      elements := [.func 1, .func 2] }
  have ht : TruthfulInput exRealName exTemplFile f := by
    refine ⟨⟨[], rfl, by simp⟩, fun pk hm => ?_⟩
    rcases exTempl_mentioned hm with rfl | rfl | rfl <;> decide
  have hi : NameableInput exTemplFile f := by
    refine ⟨⟨[], rfl, by simp⟩, fun pk hm => ?_⟩
    rcases exTempl_mentioned hm with rfl | rfl | rfl <;> decide
  obtain ⟨f', hf'⟩ : ∃ f', (renderFile exTemplEnv 3 0 exTemplFile).2.files 0 = some f' := ⟨_, rfl⟩
  have hp : f'.imports.importSpecs = [⟨[], b! "x/q"⟩, ⟨b! "q1", b! "y/q"⟩] ∧ f'.imports.pkgPath = b! "x/p" := by
    have : ((renderFile exTemplEnv 3 0 exTemplFile).2.files 0).map (fun f => (f.imports.importSpecs, f.imports.pkgPath)) =
      some ([⟨[], b! "x/q"⟩, ⟨b! "q1", b! "y/q"⟩], b! "x/p") := by decide +kernel
    rw [hf'] at this
    simpa using this
  have hsc : f'.imports.scope [b! "F", b! "G"] exRealName =
      ⟨b! "x/p", [b! "F", b! "G"], [⟨[], b! "x/q"⟩, ⟨b! "q1", b! "y/q"⟩], exRealName⟩ := by
    rw [Imports.scope, hp.1, hp.2]
  obtain ⟨d, w, s, h1, h2, h3, h4⟩ := C66_template_file_iff_partial (decls := [b! "F", b! "G"]) (env := exTemplEnv) (fuel := 3)
    (p := 0) (h := exTemplFile) (f := f) (f' := f') (text := exTemplText) rfl ht hi (by rw [← exTempl_written]) hf'
    (by rw [Imports.importedPaths, hp.1]; decide) (e := .func 1) (by simp [f]) (q := 3) (.func rfl (List.mem_singleton.2 rfl))
    (n := 0) (v := exCallData) rfl (by rfl) (by rfl) (by rfl) (.inl (by rfl)) ⟨trivial, trivial, trivial, trivial⟩ exOwnTexts
    (path := [.elem 1]) (a := true) (w := .symbol ⟨⟨b! "y/q", b! "q"⟩, b! "B"⟩) (r := .symbol ⟨⟨b! "y/q", b! "q"⟩, b! "B"⟩)
    rfl rfl (by decide) ⟨rfl, fun h => absurd h (by decide)⟩
  exact ⟨d, w, s, f'.imports, h1, h2, h3, by rw [hf']; rfl, h4.2 (by rw [hsc]; exact reaches_other (by decide) (by decide))⟩

end Gopoet
