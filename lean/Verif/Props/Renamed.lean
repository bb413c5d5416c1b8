import Verif.Spec.Renamed
import Verif.Props.UnusedImports
import Verif.Props.FileSyntax
/-! Property C70: packages are renamed only when they must be. -/

namespace Gopoet
open Imports

theorem Evolves.chosen {P : Package → Prop} {i j : Imports} (h : Evolves P i j) (hi : Inv i) {p : GoString}
    {d : ImportDef} (hp : j.importsByPath.get p = some d) : i.importsByPath.get p = some d ∨
      (i.importsByPath.get p = none ∧ ∃ pkg n, P pkg ∧ pkg.importPath = p ∧ d.packageName = candidate (baseName pkg) n ∧
        d.isAlias = decide (d.packageName ≠ pkg.name) ∧
        ∀ l < n, ∃ y d', y ≠ p ∧ j.importsByPath.get y = some d' ∧ d'.packageName = candidate (baseName pkg) l) := by
  induction h with
  | refl => exact .inl hp
  | step he hs ih =>
    have hs' := hs
    obtain ⟨pkg, q, hP, hown, hnone, ⟨n, hq, hfree, hused⟩, rfl⟩ := hs
    have hext := (Evolves.step (.refl _) hs').ext
    simp only [Imports.add, GoMap.get_set] at hp
    split at hp
    · rename_i hpp
      subst hpp
      simp only [Option.some.injEq] at hp
      subst hp
      refine .inr ⟨?_, pkg, n, hP, rfl, hq, rfl, fun l hl => ?_⟩
      · cases hg : (_ : GoMap GoString ImportDef).get pkg.importPath with
        | none => rfl
        | some d => exact absurd ((he.ext.keeps _ _ hg).symm.trans hnone) (by simp)
      · obtain ⟨y, hy⟩ := Option.ne_none_iff_exists'.1 (hused l hl)
        obtain ⟨d', h1, h2⟩ := (he.inv hi).toPath _ _ hy
        refine ⟨y, d', ?_, hext.keeps _ _ h1, h2⟩
        rintro rfl
        rw [hnone] at h1
        cases h1
    · rcases ih hp with h1 | ⟨h1, pkg', n', h2, h3, h4, h5, h6⟩
      · exact .inl h1
      · refine .inr ⟨h1, pkg', n', h2, h3, h4, h5, fun l hl => ?_⟩
        obtain ⟨y, d', h7, h8, h9⟩ := h6 l hl
        exact ⟨y, d', h7, hext.keeps _ _ h8, h9⟩

/-- Only packages are added that are imported in the end. -/
theorem Evolves.final {P : Package → Prop} {i j : Imports} (h : Evolves P i j) :
    Evolves (fun pk => P pk ∧ j.importsByPath.get pk.importPath ≠ none) i j := by
  induction h with
  | refl => exact .refl _
  | @step j k he hs ih =>
    have hext := (Evolves.step (.refl _) hs).ext
    have hm : ∀ pk, (P pk ∧ j.importsByPath.get pk.importPath ≠ none) → P pk ∧ k.importsByPath.get pk.importPath ≠ none :=
      fun pk ⟨h1, h2⟩ => by
        obtain ⟨d, hd⟩ := Option.ne_none_iff_exists'.1 h2
        exact ⟨h1, by rw [hext.keeps _ _ hd]; simp⟩
    obtain ⟨pkg, q, hP, h1, h2, h3, rfl⟩ := hs
    exact .step (ih.mono hm) ⟨pkg, q, ⟨hP, by simp [Imports.add]⟩, h1, h2, h3, rfl⟩

/-- The packages that can be added. -/
def Addable (P : Package → Prop) (i : Imports) (pk : Package) : Prop :=
  P pk ∧ pk.importPath ≠ i.pkgPath ∧ i.importsByPath.get pk.importPath = none

/-- Without conflicts all packages get their own names. -/
theorem Evolves.plain {P : Package → Prop} {i j : Imports} (h : Evolves P i j) (hi : Inv i)
    (hd : ∀ a b, Addable P i a → Addable P i b → baseName a = baseName b → a.importPath = b.importPath)
    (ho : ∀ a, Addable P i a → ∀ y d, i.importsByPath.get y = some d → d.packageName ≠ baseName a)
    {p : GoString} {d : ImportDef} (hp : j.importsByPath.get p = some d) : i.importsByPath.get p = some d ∨
      ∃ pkg, Addable P i pkg ∧ pkg.importPath = p ∧ d.packageName = baseName pkg := by
  induction h generalizing p d with
  | refl => exact .inl hp
  | step he hs ih =>
    obtain ⟨pkg, q, hP, hown, hnone, ⟨n, hq, hfree, hused⟩, rfl⟩ := hs
    simp only [Imports.add, GoMap.get_set] at hp
    split at hp
    · rename_i hpp
      subst hpp
      simp only [Option.some.injEq] at hp
      subst hp
      have ha : Addable P i pkg := by
        refine ⟨hP, he.ext.own ▸ hown, ?_⟩
        cases hg : (_ : GoMap GoString ImportDef).get pkg.importPath with
        | none => rfl
        | some d => exact absurd ((he.ext.keeps _ _ hg).symm.trans hnone) (by simp)
      refine .inr ⟨pkg, ha, rfl, ?_⟩
      cases n with
      | zero => exact hq
      | succ n =>
        obtain ⟨y, hy⟩ := Option.ne_none_iff_exists'.1 (hused 0 (Nat.succ_pos _))
        obtain ⟨d', h1, h2⟩ := (he.inv hi).toPath _ _ hy
        rcases ih h1 with h3 | ⟨b, h3, h4, h5⟩
        · exact absurd h2 (ho pkg ha y d' h3)
        · have h6 := hd b pkg h3 ha (h5.symm.trans h2)
          rw [← h4, h6, hnone] at h1
          cases h1
    · exact ih hp

theorem qualifierOf_get {i : Imports} (hi : Inv i) {p : GoString} {d : ImportDef} (hg : i.importsByPath.get p = some d) :
    i.qualifierOf p = d.packageName := by
  rw [Imports.qualifierOf, if_neg, hg]
  rintro rfl
  rw [hi.ownAbsent] at hg
  cases hg

theorem mem_importedPaths_iff {i : Imports} {p : GoString} : p ∈ i.importedPaths ↔ ∃ d, i.importsByPath.get p = some d := by
  rw [show p ∈ i.importedPaths ↔ _ from mem_importPaths _ _, Option.ne_none_iff_exists']

/-- C70: a package that is imported when a file is written gets the first of the names base, base1, base2 ... that no
other import of the file has, where base is the name of a package as the file mentions it. The import statement gives
the name exactly if it is not the one mentioned. -/
theorem C70_first_free {env : Env} {fuel : Nat} {p : Ptr} {h h' : Heap} {f f' : GoFile} {text : GoString}
    (hi : Reachable f.imports) (hf : h.files p = some f) (hr : renderFile env fuel p h = (.ok text, h'))
    (hf' : h'.files p = some f') {x : GoString} (hx : x ∈ f'.imports.importedPaths) (h0 : x ≠ [])
    (hnew : x ∉ f.imports.importedPaths) :
    ∃ pk k, NewlyVisited h f pk ∧ pk.importPath = x ∧ f'.imports.qualifierOf x = candidate pk.ownName k ∧
      ⟨if f'.imports.qualifierOf x = pk.name then [] else f'.imports.qualifierOf x, x⟩ ∈ f'.imports.importSpecs ∧
      ∀ l < k, ∃ y ∈ f'.imports.importedPaths, y ≠ x ∧ f'.imports.qualifierOf y = candidate pk.ownName l := by
  obtain ⟨he, -⟩ := qualifyFile_adds (qualifyFile_of_renderFile hr) hf hf'
  have inv' := he.inv hi.inv
  obtain ⟨d, hd⟩ := mem_importedPaths_iff.1 hx
  rcases he.chosen hi.inv hd with h1 | ⟨h1, pk, k, h2, rfl, h4, h5, h6⟩
  · exact absurd (mem_importedPaths_iff.2 ⟨d, h1⟩) hnew
  rcases h2 with h2 | h2
  · refine ⟨pk, k, ⟨h2, h0, fun ho => ?_, hnew⟩, rfl, (qualifierOf_get inv' hd).trans h4, ?_, fun l hl => ?_⟩
    · have := inv'.ownAbsent
      rw [he.ext.own, ← ho, hd] at this
      cases this
    · rw [mem_importSpecs inv']
      refine ⟨d, hd, ?_⟩
      rw [qualifierOf_get inv' hd, h5]
      by_cases hn : d.packageName = pk.name <;> simp [hn]
    · obtain ⟨y, d', h7, h8, h9⟩ := h6 l hl
      exact ⟨y, mem_importedPaths_iff.2 ⟨d', h8⟩, h7, (qualifierOf_get inv' h8).trans h9⟩
  · exact absurd h2 h0

/-- C70, exactly: all packages that have to be imported keep their names if and only if no two of them have the same
name, none has the name of an earlier import, and none is mentioned under two names. (The made-up copies of specs in the
data of templates, which have the package path "", must not be imported: this can take a name, see `C31_full_fails`.) -/
theorem C70_kept_iff {env : Env} {fuel : Nat} {p : Ptr} {h h' : Heap} {f f' : GoFile} {text : GoString}
    (hi : Reachable f.imports) (hf : h.files p = some f) (hr : renderFile env fuel p h = (.ok text, h'))
    (hf' : h'.files p = some f') (h0 : [] ∉ f'.imports.importedPaths) :
    (∀ pk, NewlyVisited h f pk → f'.imports.qualifierOf pk.importPath = pk.ownName) ↔ NoNameTwice h f ∧ NamedOnce h f := by
  obtain ⟨he, -⟩ := qualifyFile_adds (qualifyFile_of_renderFile hr) hf hf'
  have inv' := he.inv hi.inv
  have imported : ∀ pk, NewlyVisited h f pk → ∃ d, f'.imports.importsByPath.get pk.importPath = some d := by
    rintro pk ⟨⟨e, h1, h2⟩, h3, h4, h5⟩
    exact mem_importedPaths_iff.1 ((C62_imports_iff hf hr hf' h3).2 (.inr ⟨h4, e, h1, pk, h2, rfl⟩))
  constructor
  · intro hall
    refine ⟨⟨fun a b ha hb hab => ?_, fun a ha y hy hya => ?_⟩, fun a b ha hb hab => ?_⟩
    · obtain ⟨d, hd⟩ := imported a ha
      obtain ⟨d', hd'⟩ := imported b hb
      have h1 := hall a ha
      have h2 := hall b hb
      rw [qualifierOf_get inv' hd] at h1
      rw [qualifierOf_get inv' hd', ← hab] at h2
      have h3 := inv'.toName _ _ hd
      have h4 := inv'.toName _ _ hd'
      rw [h1] at h3
      rw [h2, h3] at h4
      exact Option.some.inj h4
    · obtain ⟨d, hd⟩ := imported a ha
      obtain ⟨d', hd'⟩ := mem_importedPaths_iff.1 hy
      rw [qualifierOf_get hi.inv hd'] at hya
      have h1 := hall a ha
      rw [qualifierOf_get inv' hd] at h1
      have h3 := inv'.toName _ _ hd
      have h4 := inv'.toName _ _ (he.ext.keeps _ _ hd')
      rw [h1] at h3
      rw [hya, h3] at h4
      rw [← Option.some.inj h4] at hy
      exact ha.2.2.2 hy
    · rw [← hall a ha, ← hall b hb, hab]
  · rintro ⟨⟨h1, h2⟩, h3⟩ pk hpk
    have visited : ∀ a, Addable (fun pk => ((∃ e ∈ f.elements, Visited h e pk) ∨ pk.importPath = []) ∧
        f'.imports.importsByPath.get pk.importPath ≠ none) f.imports a → NewlyVisited h f a := by
      rintro a ⟨⟨h4, h5⟩, h6, h7⟩
      have h8 : a.importPath ≠ [] := fun h8 => h0 (h8 ▸ (mem_importPaths _ _).2 h5)
      refine ⟨h4.resolve_right h8, h8, h6, fun h9 => ?_⟩
      obtain ⟨d, hd⟩ := mem_importedPaths_iff.1 h9
      rw [h7] at hd
      cases hd
    obtain ⟨d, hd⟩ := imported pk hpk
    rcases he.final.plain hi.inv (fun a b ha hb => h1 a b (visited a ha) (visited b hb))
      (fun a ha y d hy => qualifierOf_get hi.inv hy ▸ h2 a (visited a ha) y (mem_importedPaths_iff.2 ⟨d, hy⟩)) hd with h4 | ⟨a, h4, h5, h6⟩
    · exact absurd (mem_importedPaths_iff.2 ⟨d, h4⟩) hpk.2.2.2
    · rw [qualifierOf_get inv' hd, h6]
      exact h3 a pk (visited a h4) hpk h5

/-- C70: then the import statements of a file that had no imports give no names. -/
theorem C70_no_aliases {env : Env} {fuel : Nat} {p : Ptr} {h h' : Heap} {f f' : GoFile} {text : GoString}
    (hi : Reachable f.imports) (hf : h.files p = some f) (hr : renderFile env fuel p h = (.ok text, h'))
    (hf' : h'.files p = some f') (h0 : [] ∉ f'.imports.importedPaths) (hnew : f.imports.importedPaths = [])
    (hd : NoNameTwice h f) (hone : NamedOnce h f) (hn : ∀ pk, NewlyVisited h f pk → pk.name ≠ []) :
    ∀ s ∈ f'.imports.importSpecs, s.packageAlias = [] := by
  intro s hs
  have inv' := ((qualifyFile_adds (qualifyFile_of_renderFile hr) hf hf').1).inv hi.inv
  obtain ⟨d, hd1, hd2⟩ := (mem_importSpecs inv' s).1 hs
  have h1 : s.importPath ∈ f'.imports.importedPaths := mem_importedPaths_iff.2 ⟨d, hd1⟩
  obtain ⟨pk, k, h2, h3, -, h4, -⟩ := C70_first_free hi hf hr hf' h1 (fun h2 => h0 (h2 ▸ h1)) (by simp [hnew])
  have h5 := (C70_kept_iff hi hf hr hf' h0).2 ⟨hd, hone⟩ pk h2
  rw [h3, Package.ownName, if_neg (hn pk h2)] at h5
  rw [if_pos h5] at h4
  obtain ⟨d', h6, h7⟩ := (mem_importSpecs inv' _).1 h4
  rw [hd1] at h6
  cases h6
  rw [hd2, ← h7]

/-- C70, in the text: it is read as a file whose imports have no names. -/
theorem C70_text {env : Env} {fuel : Nat} {p : Ptr} {h h' : Heap} {f f' : GoFile} {text : GoString} {ds : List DeclSyn}
    (hi : Reachable f.imports) (hf : h.files p = some f) (hr : renderFile env fuel p h = (.ok text, h'))
    (hf' : h'.files p = some f') (h0 : [] ∉ f'.imports.importedPaths) (hnew : f.imports.importedPaths = [])
    (hd : NoNameTwice h f) (hone : NamedOnce h f) (hn : ∀ pk, NewlyVisited h f pk → pk.name ≠ [])
    (ht : NameableInput h f) (hp : isIdent f.packageName = true) (hds : List.Forall₂ (Declares env h') f.elements ds) :
    ∃ src, parseGoFile text = some src ∧ ∀ s ∈ src.imports, s.name = none := by
  refine ⟨_, C55_written_file (.inr h0) hf ht hr hf' hp hds, fun s hs => ?_⟩
  obtain ⟨x, h1, rfl⟩ := List.mem_map.1 hs
  simp [ImportSpec.syn, C70_no_aliases hi hf hr hf' h0 hnew hd hone hn x h1, optName]

/-- A file of package x/p with a function whose code mentions A of package x/q and B of the package with the given path,
which is called r. -/
def exTwoPackages (path name : GoString) : Heap where
  files p := if p = 0 then some { name := b! "p.go", packageName := b! "p", imports := newImportsFor (b! "x/p"), elements := [.func 1] }
    else none
  funcs p := if p = 1 then some { name := b! "F", parent := some 0, code := [.line (b! "%s(%s)\n") 2] } else none
  args p := if p = 2 then some [.symbol ⟨⟨b! "x/q", b! "q"⟩, b! "A"⟩, .symbol ⟨⟨path, name⟩, b! "B"⟩] else none

theorem exTwoPackages_visited {path name : GoString} {f : GoFile} (hf : (exTwoPackages path name).files 0 = some f) {pk : Package}
    (hv : NewlyVisited (exTwoPackages path name) f pk) : pk = ⟨b! "x/q", b! "q"⟩ ∨ pk = ⟨path, name⟩ := by
  cases hf
  obtain ⟨⟨e, h1, h2⟩, -⟩ := hv
  simp only [List.mem_singleton] at h1
  subst h1
  cases h2 with
  | funcSig h1 h2 => cases h1; simp [Signature.symbols, symbolsArgs] at h2
  | funcCode h1 h2 h3 =>
    cases h1
    simp only [List.mem_singleton] at h2
    subst h2
    cases h3 with
    | line h4 h5 h6 =>
      cases h4
      simp only [List.mem_cons, List.not_mem_nil, or_false] at h5
      rcases h5 with rfl | rfl <;> cases h6 with
      | ref h7 h8 => cases h7; simp [Reference.packages] at h8; simp [h8]

/-- x/q and y/r keep their names. -/
example : (renderFile exEnv 3 0 (exTwoPackages (b! "y/r") (b! "r"))).1 =
    .ok (b! "package p\n\nimport \"x/q\"\nimport \"y/r\"\n\nfunc F() {\nq.A(r.B)\n}\n") := by decide
example {f : GoFile} (hf : (exTwoPackages (b! "y/r") (b! "r")).files 0 = some f) :
    NoNameTwice (exTwoPackages (b! "y/r") (b! "r")) f ∧ NamedOnce (exTwoPackages (b! "y/r") (b! "r")) f := by
  refine ⟨⟨fun a b ha hb => ?_, fun a ha y hy => ?_⟩, fun a b ha hb => ?_⟩
  · rcases exTwoPackages_visited hf ha with rfl | rfl <;> rcases exTwoPackages_visited hf hb with rfl | rfl <;> decide
  · cases hf
    simp [Imports.importedPaths, Imports.importSpecs, importSpecsInOrder, newImportsFor, sortSpecs] at hy
  · rcases exTwoPackages_visited hf ha with rfl | rfl <;> rcases exTwoPackages_visited hf hb with rfl | rfl <;> decide

/-- x/q and y/q do not. -/
example : (renderFile exEnv 3 0 (exTwoPackages (b! "y/q") (b! "q"))).1 =
    .ok (b! "package p\n\nimport \"x/q\"\nimport q1 \"y/q\"\n\nfunc F() {\nq.A(q1.B)\n}\n") := by decide
example {f : GoFile} (hf : (exTwoPackages (b! "y/q") (b! "q")).files 0 = some f) :
    ¬ NoNameTwice (exTwoPackages (b! "y/q") (b! "q")) f := by
  cases hf
  intro ⟨h1, _⟩
  exact absurd (h1 ⟨b! "x/q", b! "q"⟩ ⟨b! "y/q", b! "q"⟩
    ⟨⟨.func 1, List.mem_singleton.2 rfl, .funcCode rfl (List.mem_singleton.2 rfl) (.line rfl List.mem_cons_self (.ref (.symbol _) (by simp [Reference.packages])))⟩,
      by decide, by decide, by decide⟩
    ⟨⟨.func 1, List.mem_singleton.2 rfl, .funcCode rfl (List.mem_singleton.2 rfl) (.line rfl (List.mem_cons_of_mem _ List.mem_cons_self) (.ref (.symbol _) (by simp [Reference.packages])))⟩,
      by decide, by decide, by decide⟩ rfl) (by decide)

end Gopoet
