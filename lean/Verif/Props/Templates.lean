import Verif.Proof.DataLemmas
import Verif.Spec.Copyable
/-! Property C42: `Imports.QualifyTemplateData`. -/

namespace Gopoet
open Imports

/-- C42 in full: valid data (with references to declared specs) is always qualified; all references
in the result have the package names of the imports and nothing else is changed; this includes specs,
whose parent is replaced by a file of the same package. -/
def C42_full : Prop := ∀ (h : Heap) (v : TVal) (i : Imports), (TVal.iface acceptsAll v).validTypes = true →
  v.distinctKeys = true → v.specsPresent h = true →
  ∃ v' j, qualifyTemplateData h v i = (.ok v', j) ∧
    (TVal.iface acceptsAll v).requalify h j.qualifierOf = .iface acceptsAll v' ∧
    SpecsKept h j.qualifierOf v v'

/-- C42: if the data has no unexported struct fields, no arrays that are not behind pointers or in
slices and no pointers to interfaces, then qualification returns. -/
theorem C42_returns_partial {h : Heap} {v : TVal} (hs : v.specsPresent h = true) (hv : (TVal.iface acceptsAll v).validTypes = true)
    (ha : v.settable false = true) (hf : v.flatPtrs = true) (i : Imports) : ∃ v' j, qualifyTemplateData h v i = (.ok v', j) := by
  obtain ⟨⟨r, c⟩, j, h1⟩ := returns_qualifyData h true (.iface acceptsAll v) (by simpa [TVal.specsPresent] using hs) hv
    (by simpa [TVal.settable] using ha) (by simpa [TVal.flatPtrs] using hf) i
  obtain ⟨w, hw⟩ := qualifyData_iface_shape h1
  dsimp only at hw
  subst hw
  exact ⟨w, j, by rw [qualifyTemplateData, IM.bind_ok h1]; rfl⟩

/-- C42: whenever qualification returns, what it returns is the data with the package names of the
imports in all references, and nothing else changed — unless different keys of a map become equal by
that or there are pointers to interfaces. (What a spec is replaced by has lost its import path, though:
`C42_full_fails_for_specs`.) -/
theorem C42_result_partial {h : Heap} {v v' : TVal} {i j : Imports}
    (hv : (TVal.iface acceptsAll v).validTypes = true) (hf : v.flatPtrs = true)
    (hq : qualifyTemplateData h v i = (.ok v', j))
    (hd : ((TVal.iface acceptsAll v).requalify h j.qualifierOf).distinctKeys = true) :
    (TVal.iface acceptsAll v).requalify h j.qualifierOf = .iface acceptsAll v' := by
  rw [qualifyTemplateData] at hq
  obtain ⟨⟨r, c⟩, i1, h1, hq⟩ := IM.bind_eq_ok hq
  obtain ⟨w, hw⟩ := qualifyData_iface_shape h1
  dsimp only at hw hq
  subst hw
  obtain ⟨rfl, rfl⟩ := pure_eq_ok hq
  have hp := (post_qualifyData h true (.iface acceptsAll v) hv _ _ _ h1).2
    _ (.refl _)
  exact (hp.2 (by simpa [TVal.flatPtrs] using hf) hd).symm

/-- C42: all packages that the data mentions are the own package or imported then. -/
theorem C42_all_imported {h : Heap} {v v' : TVal} {i j : Imports}
    (hq : qualifyTemplateData h v i = (.ok v', j)) :
    ∀ pk ∈ (TVal.iface acceptsAll v).packages, pk ≠ ⟨[], []⟩ → pk.importPath = j.pkgPath ∨
      j.importsByPath.get pk.importPath ≠ none := by
  intro pk hpk hne
  rcases (registers_qualifyTemplateData h v i _ j hq).2 pk hpk with h1 | h1 | h1
  · exact absurd h1 hne
  · exact .inl h1
  · exact .inr h1

/-- C42: the value itself is returned exactly if no reference changes. -/
theorem C42_same_value {h : Heap} {v r : TVal} {c : Bool} {i j : Imports}
    (hv : (TVal.iface acceptsAll v).validTypes = true)
    (hq : qualifyData h true (.iface acceptsAll v) i = (.ok (r, c), j)) :
    (c = false ↔ (TVal.iface acceptsAll v).requalify h j.qualifierOf = .iface acceptsAll v) ∧
    (c = false → r = .iface acceptsAll v) := by
  have hp := (post_qualifyData h true (.iface acceptsAll v) hv _ _ _ hq).2
    _ (.refl _)
  exact ⟨hp.1, (qualifyData_post h true _ hq).same⟩

/-- C42: so data with exported fields only, without arrays (unless behind pointers or in slices) and
pointers to interfaces and with strings or the like as keys of maps is always qualified correctly. -/
theorem C42_plain_data_partial {h : Heap} {v : TVal} (hs : v.specsPresent h = true)
    (hv : (TVal.iface acceptsAll v).validTypes = true) (ha : v.settable false = true)
    (hf : v.flatPtrs = true) (hp : v.plainKeys = true) (hd : v.distinctKeys = true) (i : Imports) :
    ∃ v' j, qualifyTemplateData h v i = (.ok v', j) ∧
      (TVal.iface acceptsAll v).requalify h j.qualifierOf = .iface acceptsAll v' := by
  obtain ⟨v', j, hq⟩ := C42_returns_partial (h := h) hs hv ha hf i
  exact ⟨v', j, hq, C42_result_partial hv hf hq
    (distinctKeys_requalify _ _ _ (by simpa [TVal.plainKeys] using hp) (by simpa [TVal.distinctKeys] using hd))⟩

/-- The symbol T of package x/a, whose name is taken to be the given one. -/
def exSymIn (n : GoString) : Symbol := ⟨⟨b! "x/a", n⟩, b! "T"⟩

/-- Data for a template: a pointer to a struct with a slice of symbols, a map from strings to types
in interfaces, and a number. -/
def exTData : TVal := .ptr (.struct [(true, .slice [.symbol (exSymIn (b! "a")), .symbol ⟨⟨b! "y/a", b! "a"⟩, b! "U"⟩]),
  (true, .map [(.scalar 0, .iface acceptsAll (.typeName (.slice (.named ⟨⟨b! "y/a", b! "a"⟩, b! "V"⟩)))),
               (.scalar 1, .iface acceptsAll (.scalar 5))]),
  (true, .scalar 7)])

example : exTData.specsPresent {} = true ∧ (TVal.iface acceptsAll exTData).validTypes = true ∧
    exTData.settable false = true ∧ exTData.flatPtrs = true ∧ exTData.plainKeys = true ∧ exTData.distinctKeys = true := by
  refine ⟨?_, ?_, ?_, ?_, ?_, ?_⟩ <;> rfl

/-- both packages are called a, so that the second one is renamed -/
example : (qualifyTemplateData {} exTData (newImportsFor (b! "x/p"))).1 =
    .ok (.ptr (.struct [(true, .slice [.symbol (exSymIn (b! "a")), .symbol ⟨⟨b! "y/a", b! "a1"⟩, b! "U"⟩]),
      (true, .map [(.scalar 0, .iface acceptsAll (.typeName (.slice (.named ⟨⟨b! "y/a", b! "a1"⟩, b! "V"⟩)))),
                   (.scalar 1, .iface acceptsAll (.scalar 5))]),
      (true, .scalar 7)])) := by rfl

/-- C42 fails: a struct with an unexported field whose value must change makes it panic -/
theorem C42_full_fails_for_unexported_fields : ¬ C42_full := by
  intro hall
  obtain ⟨v', j, h1, -⟩ := (hall {} (.ptr (.struct [(false, .symbol (exSymIn []))])) (newImportsFor (b! "x/p"))
    rfl rfl rfl)
  have h2 : (qualifyTemplateData {} (.ptr (.struct [(false, .symbol (exSymIn []))]))
    (newImportsFor (b! "x/p"))).1 = .panic := by rfl
  rw [h1] at h2
  simp at h2

/-- ... and so does an array that is held by value -/
theorem C42_full_fails_for_arrays : ¬ C42_full := by
  intro hall
  obtain ⟨v', j, h1, -⟩ := (hall {} (.array [.symbol (exSymIn [])]) (newImportsFor (b! "x/p")) rfl rfl rfl)
  have h2 : (qualifyTemplateData {} (.array [.symbol (exSymIn [])]) (newImportsFor (b! "x/p"))).1 = .panic := by rfl
  rw [h1] at h2
  simp at h2

/-- ... a pointer to an interface becomes a pointer to what was in the interface -/
theorem C42_full_fails_for_interface_pointers : ¬ C42_full := by
  intro hall
  obtain ⟨v', j, h1, h3, -⟩ := (hall {} (.ptr (.iface acceptsAll (.symbol (exSymIn [])))) (newImportsFor (b! "x/p")) rfl rfl rfl)
  have h2 : (qualifyTemplateData {} (.ptr (.iface acceptsAll (.symbol (exSymIn [])))) (newImportsFor (b! "x/p"))).1 =
    .ok (.ptr (.symbol (exSymIn (b! "a")))) := by rfl
  rw [h1] at h2
  simp only [Outcome.ok.injEq] at h2
  subst h2
  rw [requalify_iface _ _ _ rfl, TVal.requalify, requalify_iface _ _ _ rfl] at h3
  simp at h3

/-- ... so that it panics if the pointer is in a struct or a slice -/
example : (qualifyTemplateData {} (.slice [.ptr (.iface acceptsAll (.symbol (exSymIn [])))]) (newImportsFor (b! "x/p"))).1 =
    .panic := by rfl
example : (qualifyTemplateData {} (.struct [(true, .ptr (.ptr (.iface acceptsAll (.symbol (exSymIn [])))))])
    (newImportsFor (b! "x/p"))).1 = .panic := by rfl

/-- ... keys of maps can become equal, so that entries are lost -/
theorem C42_full_fails_for_keys : ¬ C42_full := by
  intro hall
  obtain ⟨v', j, h1, h3, -⟩ := (hall {} (.map [(.symbol (exSymIn (b! "a")), .scalar 1), (.symbol (exSymIn []), .scalar 2)])
    (newImportsFor (b! "x/p")) rfl rfl rfl)
  have h2 : (qualifyTemplateData {} (.map [(.symbol (exSymIn (b! "a")), .scalar 1), (.symbol (exSymIn []), .scalar 2)])
    (newImportsFor (b! "x/p"))).1 = .ok (.map [(.symbol (exSymIn (b! "a")), .scalar 2)]) := by rfl
  rw [h1] at h2
  simp only [Outcome.ok.injEq] at h2
  subst h2
  rw [requalify_iface _ _ _ rfl, TVal.requalify] at h3
  simp [requalifyEntries] at h3

/-- A type T declared in a file of package x/a. -/
def exDeclared : Heap where
  files p := if p = 0 then some { name := b! "a.go", packageName := b! "a", imports := newImportsFor (b! "x/a") } else none
  types p := if p = 1 then some { name := b! "T", underlying := .basic .int, parent := some 0 } else none

/-- ... and a spec that gets another package name is no longer in its package: nothing is left of the
import path -/
theorem C42_full_fails_for_specs : ¬ C42_full := by
  intro hall
  obtain ⟨w, j, h1, -, h3⟩ := hall exDeclared (.ptr (.spec (.type 1))) (newImportsFor (b! "x/a")) rfl rfl rfl
  have h2 : (qualifyTemplateData exDeclared (.ptr (.spec (.type 1))) (newImportsFor (b! "x/a"))).1 =
    .ok (.ptr (.specCopy (.type 1) [])) := by rfl
  rw [h1] at h2
  simp only [Outcome.ok.injEq] at h2
  subst h2
  have h4 : [some (⟨[], []⟩ : Package)] = [some ⟨b! "x/a", j.qualifierOf (b! "x/a")⟩] := h3
  simp at h4

/-- C42: a pointer to a spec of another package whose name is not taken stays as it is, and the package
is imported. -/
theorem C42_spec_kept_partial {h : Heap} {r : SpecRef} {p : Ptr} {f : GoFile} {i : Imports}
    (hp : r.parent h = .ok (some p)) (hf : h.files p = some f) {j : Imports}
    (hq : registerPackage f.package i = (.ok f.packageName, j)) :
    qualifyTemplateData h (.ptr (.spec r)) i = (.ok (.ptr (.spec r)), j) := by
  rw [GoFile.package] at hq
  rw [qualifyTemplateData, qualifyData_iface _ _ _ rfl, qualifyData, qualifyData, hp]
  simp [IM.bind_apply, deref_ok hf, qualifySpecIn, hq, GoFile.package]

example : (qualifyTemplateData exDeclared (.ptr (.spec (.type 1))) (newImportsFor (b! "x/p"))).1 =
    .ok (.ptr (.spec (.type 1))) := by rfl

/-- C42: what is given to `QualifyTemplateData` is in an `interface{}`, which can have anything as value. So references of go/types
and reflect are replaced by gopoet's, unless these are the same as without file. -/
theorem C42_given (h : Heap) {v' : TVal} {i j : Imports} :
    (∀ o s, symbolForGoObject o = .ok (.symbol s) → qualifyTemplateData h (.goObject o) i = (.ok v', j) →
      ∃ s', ensureImported s i = (.ok s', j) ∧ v' = if s' = s then .goObject o else .symbol s') ∧
    (∀ o m, symbolForGoObject o = .ok (.method m) → qualifyTemplateData h (.goObject o) i = (.ok v', j) →
      ∃ s', ensureImported m.type i = (.ok s', j) ∧ v' = if s' = m.type then .goObject o else .ptr (.mref ⟨s', m.method⟩)) ∧
    (∀ g pk, packageForGoType (some g) = .ok pk → qualifyTemplateData h (.goPackage g) i = (.ok v', j) →
      ∃ n, registerPackage pk i = (.ok n, j) ∧ v' = if n = pk.name then .goPackage g else .package ⟨pk.importPath, n⟩) ∧
    (∀ g t, typeNameForGoType g = .ok t → qualifyTemplateData h (.goType g) i = (.ok v', j) →
      ∃ r, qualifyType true t i = (.ok r, j) ∧ v' = if r.2 then .typeName r.1 else .goType g) ∧
    ∀ g t, typeNameForReflectType g = .ok t → qualifyTemplateData h (.reflectType g) i = (.ok v', j) →
      ∃ r, qualifyType true t i = (.ok r, j) ∧ v' = if r.2 then .typeName r.1 else .reflectType g := by
  refine ⟨fun o s ho hq => ?_, fun o m ho hq => ?_, fun g pk hg hq => ?_, fun g t hg hq => ?_, fun g t hg hq => ?_⟩ <;>
    (obtain ⟨⟨r, c⟩, i1, h1, h2⟩ := IM.bind_eq_ok hq)
  · simp only [qualifyData, ho] at h1
    replace h1 := (IM.bind_ok rfl).symm.trans h1
    obtain ⟨s', k, h3, h4⟩ := IM.bind_eq_ok h1
    refine ⟨s', ?_⟩
    by_cases he : s' = s
    · simp only [he, ne_eq, not_true_eq_false, false_and, if_false] at h4
      obtain ⟨e1, rfl⟩ := pure_eq_ok h4
      cases e1
      obtain ⟨rfl, rfl⟩ := pure_eq_ok h2
      exact ⟨h3, by rw [if_pos he]⟩
    · rw [if_pos ⟨he, rfl⟩] at h4
      obtain ⟨e1, rfl⟩ := pure_eq_ok h4
      cases e1
      obtain ⟨rfl, rfl⟩ := pure_eq_ok h2
      exact ⟨h3, by rw [if_neg he]⟩
  · simp only [qualifyData, ho] at h1
    replace h1 := (IM.bind_ok rfl).symm.trans h1
    obtain ⟨s', k, h3, h4⟩ := IM.bind_eq_ok h1
    refine ⟨s', ?_⟩
    by_cases he : s' = m.type
    · simp only [he, ne_eq, not_true_eq_false, false_and, if_false] at h4
      obtain ⟨e1, rfl⟩ := pure_eq_ok h4
      cases e1
      obtain ⟨rfl, rfl⟩ := pure_eq_ok h2
      exact ⟨h3, by rw [if_pos he]⟩
    · rw [if_pos ⟨he, rfl⟩] at h4
      obtain ⟨e1, rfl⟩ := pure_eq_ok h4
      cases e1
      obtain ⟨rfl, rfl⟩ := pure_eq_ok h2
      exact ⟨h3, by rw [if_neg he]⟩
  · simp only [qualifyData, hg] at h1
    replace h1 := (IM.bind_ok rfl).symm.trans h1
    obtain ⟨n, k, h3, h4⟩ := IM.bind_eq_ok h1
    refine ⟨n, ?_⟩
    by_cases he : n = pk.name
    · simp only [he, ne_eq, not_true_eq_false, false_and, if_false] at h4
      obtain ⟨e1, rfl⟩ := pure_eq_ok h4
      cases e1
      obtain ⟨rfl, rfl⟩ := pure_eq_ok h2
      exact ⟨h3, by rw [if_pos he]⟩
    · rw [if_pos ⟨he, rfl⟩] at h4
      obtain ⟨e1, rfl⟩ := pure_eq_ok h4
      cases e1
      obtain ⟨rfl, rfl⟩ := pure_eq_ok h2
      exact ⟨h3, by rw [if_neg he]⟩
  all_goals
    simp only [qualifyData, hg, qualifyConverted] at h1
    replace h1 := (IM.bind_ok rfl).symm.trans h1
    obtain ⟨⟨t', c'⟩, k, h3, h4⟩ := IM.bind_eq_ok h1
    refine ⟨(t', c'), ?_⟩
    cases c' with
    | false =>
      simp only [Bool.false_and, Bool.false_eq_true, if_false] at h4
      obtain ⟨e1, rfl⟩ := pure_eq_ok h4
      cases e1
      obtain ⟨rfl, rfl⟩ := pure_eq_ok h2
      exact ⟨h3, rfl⟩
    | true =>
      simp only [acceptsAll, Bool.and_self] at h4
      obtain ⟨e1, rfl⟩ := pure_eq_ok h4
      cases e1
      obtain ⟨rfl, rfl⟩ := pure_eq_ok h2
      exact ⟨h3, rfl⟩

/-- For example, `fmt.Println` of go/types, in a file that has another package fmt already. -/
example : (qualifyTemplateData {} (.goPackage ⟨b! "fmt", b! "fmt"⟩) { pkgPath := b! "p", importsByPath := [(b! "x/fmt", ⟨b! "fmt", false⟩)], pathsByName := [(b! "fmt", b! "x/fmt")] }).1 =
    .ok (.package ⟨b! "fmt", b! "fmt1"⟩) := by rfl

end Gopoet
