import Verif.Proof.AliasLemmas
import Verif.Proof.TextFuel
import Verif.Props.Whole
/-! Property C55: the text of a file is a Go source file with the declarations the file has. -/

namespace Gopoet
open Imports

/-- What the packages that a file mentions are called, and that were used with its Imports before, is an
identifier: the name, or the end of the path if no name is given. -/
structure NameableInput (h : Heap) (f : GoFile) : Prop where
  history : ∃ history, f.imports = (newImportsFor f.imports.pkgPath).after history ∧
    ∀ c ∈ history, ∀ pk ∈ c.packages, isIdent (baseName pk) = true
  mentioned : ∀ pk, Mentioned h pk → isIdent (baseName pk) = true ∨ pk = ⟨[], []⟩ ∨
    pk.importPath = f.imports.pkgPath ∨ pk.importPath ∈ f.imports.importedPaths

theorem NameableInput.state {h : Heap} {f : GoFile} (ht : NameableInput h f) :
    IdentState (NoSpecData h) h f.imports := by
  obtain ⟨history, hi, hh⟩ := ht.history
  have inv : Inv f.imports := by rw [hi]; exact inv_after history
  refine ⟨inv, ?_, fun pk hm => .inl ?_⟩
  · rw [hi]
    refine (evolves_after history _).identNames (inv_new _) ?_ (by intro p d hd; simp [newImportsFor] at hd)
    rintro pk ⟨c, hc, hp⟩ -
    exact .inl (hh c hc pk hp)
  · refine (ht.mentioned pk hm).imp id (Or.imp id (Or.imp id fun hk => ?_))
    exact (mem_importPaths _ _).1 hk

/-- C55: a file whose elements declare `ds` has a text, and this text is a source file with the package
name and imports of the file and exactly the declarations `ds`, in this order. -/
theorem C55_file_parses {env : Env} {h : Heap} {f : GoFile} {ds : List DeclSyn}
    (hp : isIdent f.packageName = true)
    (hi : ∀ s ∈ f.imports.importSpecs,
      s.packageAlias = [] ∨ s.packageAlias = b! "." ∨ isIdent s.packageAlias = true)
    (hd : List.Forall₂ (Declares env h) f.elements ds) :
    ∃ n text, (∀ fuel, n ≤ fuel → f.text env h fuel = .ok text) ∧
      parseGoFile text = some ⟨f.packageName, f.imports.importSpecs.map ImportSpec.syn, ds⟩ :=
  file_parses hp hi hd

/-- C55 for `WriteGoFile`, up to the formatter: what is written after qualification is a source file with
the declarations that the elements are then. -/
theorem C55_rendered_file {env : Env} {fuel : Nat} {p : Ptr} {h h' : Heap} {f' : GoFile} {text : GoString}
    {ds : List DeclSyn} (hr : renderFile env fuel p h = (.ok text, h')) (hf' : h'.files p = some f')
    (hp : isIdent f'.packageName = true)
    (hi : ∀ s ∈ f'.imports.importSpecs,
      s.packageAlias = [] ∨ s.packageAlias = b! "." ∨ isIdent s.packageAlias = true)
    (hd : List.Forall₂ (Declares env h') f'.elements ds) :
    parseGoFile text = some ⟨f'.packageName, f'.imports.importSpecs.map ImportSpec.syn, ds⟩ := by
  obtain ⟨n, t, k1, k2⟩ := file_parses hp hi hd
  have ht : f'.text env h' fuel = .ok text := by
    rw [renderFile, qualifyFile_of_renderFile hr] at hr
    simp only [deref, hf', Prod.mk.injEq, and_true] at hr
    exact hr
  have := fileText_covers (Nat.le_max_right n fuel) _ _ ht
  rw [k1 _ (Nat.le_max_left _ _)] at this
  cases this
  exact k2

/-- C55 for `WriteGoFile`, with conditions on the packages that the file mentions. The names of imports are identifiers because those of the
packages are. -/
theorem C55_written_file {env : Env} {fuel : Nat} {p : Ptr} {h h' : Heap} {f f' : GoFile} {text : GoString}
    {ds : List DeclSyn} (hn : NoCopyImported h f'.imports) (hf : h.files p = some f) (ht : NameableInput h f)
    (hr : renderFile env fuel p h = (.ok text, h')) (hf' : h'.files p = some f')
    (hp : isIdent f.packageName = true) (hd : List.Forall₂ (Declares env h') f.elements ds) :
    parseGoFile text = some ⟨f.packageName, f'.imports.importSpecs.map ImportSpec.syn, ds⟩ := by
  obtain ⟨g, g', h1, h2, h3, h4, h5⟩ := qualifyFile_settled (qualifyFile_of_renderFile hr)
  rw [hf] at h1
  rw [hf'] at h2
  obtain rfl := Option.some.inj h1
  obtain rfl := Option.some.inj h2
  have e1 : f'.elements = f.elements := by rw [h3]
  have e2 : f'.packageName = f.packageName := by rw [h3]
  have hstate' := h5.ident ht.state hn.get
  rw [← e2] at hp ⊢
  rw [← e1] at hd
  exact C55_rendered_file hr hf' hp (alias_ident hstate'.inv hstate'.names) hd

/-! ### An example -/

/-- A file with a group of constants, a variable, a struct and a method. -/
def exSource : Heap where
  files p := if p = 0 then some { name := b! "p.go", packageName := b! "p", imports := newImportsFor (b! "x/p")
                                  fileComment := b! "gen", canonicalImportPath := b! "x/p"
                                  elements := [.values 1, .values 2, .types 3, .func 4] }
    else none
  valueDecls p := if p = 1 then some { kind := .const, specs := [5, 6] }
    else if p = 2 then some { kind := .var, specs := [7] } else none
  values p := if p = 5 then some { kind := .const, names := [b! "A"], init := some 8, parent := some 0 }
    else if p = 6 then some { kind := .const, names := [b! "B", b! "C"], parent := some 0, comment := b! "b" }
    else if p = 7 then some { kind := .var, names := [b! "v"], init := some 9, parent := some 0
                              type := .name (.named ⟨⟨b! "x/q", b! "q"⟩, b! "T"⟩) }
    else none
  blocks p := if p = 8 then some [.line (b! "1") 10] else if p = 9 then some [.line (b! "%s(A)") 11] else none
  args p := if p = 10 then some [] else if p = 11 then some [.symbol ⟨⟨b! "x/q", b! "q"⟩, b! "F"⟩]
    else if p = 12 then some [] else none
  typeDecls p := if p = 3 then some { types := [13] } else none
  types p := if p = 13 then some { name := b! "S", underlying := .struct [⟨b! "f", .basic .int, []⟩]
                                   structBody := [14], parent := some 0 } else none
  fields p := if p = 14 then some { name := b! "f", type := .name (.basic .int) } else none
  funcs p := if p = 4 then some { name := b! "M", receiver := some ⟨b! "s", b! "S", true⟩, parent := some 0
                                  signature := ⟨[], [⟨[], .basic .int⟩], false⟩
                                  code := [.line (b! "return s.f\n") 12] } else none

/-- What it declares. -/
def exSourceDecls : List DeclSyn :=
  [.values true [⟨[b! "A"], none, some [.int 1]⟩, ⟨[b! "B", b! "C"], none, none⟩],
   .value false ⟨[b! "v"], some (.name (some (b! "q"), b! "T")),
     some [.ident (b! "q"), .dot, .ident (b! "F"), .lparen, .ident (b! "A"), .rparen]⟩,
   .type (.single ⟨b! "S", false, .struct [.mk (some (b! "f")) (.name (none, b! "int")) none]⟩),
   .func ⟨some (.mk (some (b! "s")) (.ptr (.name (none, b! "S")))), b! "M",
       .mk [] false [.mk none (.name (none, b! "int"))]⟩
     (some [.kw .kReturn, .ident (b! "s"), .dot, .ident (b! "f"), .semi])]

set_option maxRecDepth 4000 in
theorem exSource_text : (renderFile exEnv 3 0 exSource).1 = .ok (b! "// gen\n\npackage p // import \"x/p\"\n\nimport \"x/q\"\n\nconst (\nA = 1\n// b\nB, C\n)\n\nvar v q.T = q.F(A)\n\ntype S  struct {\nf int\n}\n\nfunc (s *S) M() int {\nreturn s.f\n}\n") := by
  decide +kernel

theorem exSource_declares : List.Forall₂ (Declares exEnv (renderFile exEnv 3 0 exSource).2)
    [.values 1, .values 2, .types 3, .func 4] exSourceDecls := by
  have lit : ∀ {p t}, t.closing = none → t.isClosing = false → p t = true → ∀ {r}, Balanced p r →
      Balanced p (t :: r) := fun h1 h2 h3 _ h4 => .tok h1 h2 h3 h4
  refine .cons (Declares.values (d := { kind := .const, specs := [5, 6] }) rfl (.inl (by decide)) ?_)
    (.cons (Declares.value (d := { kind := .var, specs := [7] }) rfl rfl rfl ?_)
      (.cons (Declares.type (d := { types := [13] }) rfl rfl rfl ?_) (.cons ?_ .nil)))
  · refine .cons ⟨_, rfl, by decide, by decide, rfl, .nil, .some rfl rfl ⟨[.int 1], rfl, rfl, by decide,
      lit rfl rfl rfl .nil⟩, rfl⟩ (.cons ⟨_, rfl, by decide, by decide, rfl, .nil, .none, rfl⟩ .nil)
  · refine .cons ⟨_, rfl, by decide, by decide, rfl, .name (t := .named ⟨⟨b! "x/q", b! "q"⟩, b! "T"⟩) ⟨rfl, rfl, rfl⟩,
      .some rfl rfl ⟨_, rfl, rfl, by decide, ?_⟩, rfl⟩ .nil
    exact lit rfl rfl rfl (lit rfl rfl rfl (lit rfl rfl rfl
      (.group (a := [.ident (b! "A")]) rfl (lit rfl rfl rfl .nil) .nil)))
  · exact .cons ⟨_, rfl, rfl, rfl, rfl, .struct rfl (.cons rfl
      (.line (t := .basic .int) rfl rfl ⟨rfl, rfl, rfl⟩ (.inr rfl)) .nil)⟩ .nil
  · exact Declares.func (f := { name := b! "M", receiver := some ⟨b! "s", b! "S", true⟩, parent := some 0
                                signature := ⟨[], [⟨[], .basic .int⟩], false⟩
                                code := [.line (b! "return s.f\n") 12] }) (code := b! "return s.f\n") rfl rfl rfl rfl rfl
      (fun r hr => by cases hr; exact ⟨.inr rfl, rfl⟩) rfl
      (.lines (a := b! "return s.f") rfl
        (lit rfl rfl rfl (lit rfl rfl rfl (lit rfl rfl rfl (lit rfl rfl rfl (lit rfl rfl rfl .nil))))))

/-- The conditions of `C55_written_file` hold for the example. -/
theorem exSource_nameable {f : GoFile} (hf : exSource.files 0 = some f) : NameableInput exSource f := by
  cases hf
  refine ⟨⟨[], rfl, by simp⟩, fun pk hm => ?_⟩
  cases hm with
  | file h =>
    simp only [exSource] at h
    split at h
    · cases h; decide
    · simp at h
  | value h h2 h3 =>
    simp only [exSource] at h
    split at h
    · cases h; cases h2
    · split at h
      · cases h; cases h2
      · split at h
        · cases h; cases h2
          simp only [TypeName.symbols, List.map_cons, List.map_nil, List.mem_singleton] at h3
          subst h3
          decide
        · simp at h
  | type h h2 =>
    simp only [exSource] at h
    split at h
    · cases h; revert h2; simp [TypeName.symbols, symbolsFields]
    · simp at h
  | field h h2 h3 =>
    simp only [exSource] at h
    split at h
    · cases h; cases h2; revert h3; simp [TypeName.symbols]
    · simp at h
  | embed h => simp [exSource] at h
  | method h => simp [exSource] at h
  | func h h2 =>
    simp only [exSource] at h
    split at h
    · cases h; revert h2; simp [Signature.symbols, symbolsArgs, TypeName.symbols]
    · simp at h
  | arg h h2 h3 =>
    simp only [exSource] at h
    split at h
    · cases h; simp at h2
    · split at h
      · cases h
        simp only [List.mem_singleton] at h2
        subst h2
        revert h3
        simp only [Arg.packages, List.mem_singleton]
        rintro rfl
        decide
      · split at h
        · cases h; simp at h2
        · simp at h
  | templ h => simp [exSource] at h

example : ∃ text, (renderFile exEnv 3 0 exSource).1 = .ok text ∧
    parseGoFile text = some ⟨b! "p", [⟨none, b! "x/q"⟩], exSourceDecls⟩ :=
  ⟨_, exSource_text, C55_written_file (p := 0) (h' := (renderFile exEnv 3 0 exSource).2) (.inl (by intro p t h; simp [exSource] at h)) rfl
    (exSource_nameable rfl) (by rw [← exSource_text]) rfl rfl exSource_declares⟩

/-- Code has to have balanced brackets: this function is read as two. -/
example : (FuncSpec.text exEnv { args := fun _ => some [] } { name := b! "f", code := [.line (b! "}\nfunc g() {\n") 0] }) =
      .ok (b! "func f() {\n}\nfunc g() {\n}\n") ∧
    (parseGoFile (b! "package p\n" ++ b! "func f() {\n}\nfunc g() {\n}\n")).map (fun f => f.decls.length) = some 2 := by
  decide +kernel

end Gopoet
