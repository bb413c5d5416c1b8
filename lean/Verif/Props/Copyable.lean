import Verif.Proof.CopyableLemmas
import Verif.Proof.PreservedLemmas
import Verif.Props.Templates
/-! Property C42: exactly when `Imports.QualifyTemplateData` returns, and returns what it should. -/

namespace Gopoet
open Imports

/-- C42: `QualifyTemplateData` returns if and only if the data can be rebuilt with the qualifiers that
the packages have once all the mentioned ones are registered. What is missing from the full property:
data that cannot be rebuilt. -/
theorem C42_returns_iff_partial {h : Heap} {v : TVal} {i : Imports}
    (hv : (TVal.iface acceptsAll v).validTypes = true) :
    (∃ v' j, qualifyTemplateData h v i = (.ok v', j)) ↔
      v.Copyable h (i.after (registerAll ((TVal.iface acceptsAll v).mentions h))).qualifierOf false := by
  have hd := decides_qualifyData h true (.iface acceptsAll v) hv i _ (.refl _)
  simp only [TVal.Copyable] at hd
  rw [← hd]
  constructor
  · rintro ⟨v', j, hq⟩
    obtain ⟨a, j', h1, -⟩ := IM.bind_eq_ok hq
    exact ⟨a, j', h1⟩
  · rintro ⟨⟨r, c⟩, j, h1⟩
    obtain ⟨w, hw⟩ := qualifyData_iface_shape h1
    dsimp only at hw
    subst hw
    exact ⟨w, j, by rw [qualifyTemplateData, IM.bind_ok h1]; rfl⟩

/-- C42: when it returns, the imports are those that there are when the packages that the data mentions are registered
in the order in which they occur: those of references (and of what the conversions give for types and objects) and
those of specs. -/
theorem C42_imports {h : Heap} {v v' : TVal} {i j : Imports} (hq : qualifyTemplateData h v i = (.ok v', j)) :
    j = i.after (registerAll ((TVal.iface acceptsAll v).mentions h)) :=
  effect_qualifyTemplateData h v _ _ _ hq

/-- C42: when it returns, the result is the data with the package names of the imports if and only if
nothing gets lost: no pointer to an interface and no map in which keys become equal is replaced. -/
theorem C42_result_iff_partial {h : Heap} {v v' : TVal} {i j : Imports}
    (hv : (TVal.iface acceptsAll v).validTypes = true) (hn : (TVal.iface acceptsAll v).flatIfaces = true)
    (hq : qualifyTemplateData h v i = (.ok v', j)) :
    (TVal.iface acceptsAll v).requalify h j.qualifierOf = .iface acceptsAll v' ↔ v.Preserved h j.qualifierOf := by
  rw [qualifyTemplateData] at hq
  obtain ⟨⟨r, c⟩, i1, h1, hq⟩ := IM.bind_eq_ok hq
  obtain ⟨w, hw⟩ := qualifyData_iface_shape h1
  dsimp only at hw hq
  subst hw
  obtain ⟨rfl, rfl⟩ := pure_eq_ok hq
  have hp := (rebuilt_qualifyData h true (.iface acceptsAll v) hv hn _ _ _ h1).2
    _ (.refl _)
  have := hp.2
  rw [TVal.Preserved] at this
  rw [← this]
  exact eq_comm

/-- C42: ... and the specs in it are still in their packages if and only if no package of a spec that has an import
path needs another name (the copy of a spec has none). -/
theorem C42_specs_iff_partial {h : Heap} {v v' : TVal} {n : GoString → GoString}
    (hr : (TVal.iface acceptsAll v).requalify h n = .iface acceptsAll v') :
    SpecsKept h n v v' ↔ SpecsNamed h n v := by
  have := specsKept_requalify h n (.iface acceptsAll v)
  rw [hr] at this
  exact this

/-- C42: so exactly the data that can be rebuilt without a loss is qualified as it should be. -/
theorem C42_exactly_partial {h : Heap} {v : TVal} {i : Imports}
    (hv : (TVal.iface acceptsAll v).validTypes = true) (hn : (TVal.iface acceptsAll v).flatIfaces = true) :
    (∃ v' j, qualifyTemplateData h v i = (.ok v', j) ∧
      (TVal.iface acceptsAll v).requalify h j.qualifierOf = .iface acceptsAll v' ∧ SpecsKept h j.qualifierOf v v') ↔
    v.Copyable h (i.after (registerAll ((TVal.iface acceptsAll v).mentions h))).qualifierOf false ∧
      v.Preserved h (i.after (registerAll ((TVal.iface acceptsAll v).mentions h))).qualifierOf ∧
      SpecsNamed h (i.after (registerAll ((TVal.iface acceptsAll v).mentions h))).qualifierOf v := by
  rw [← C42_returns_iff_partial (h := h) hv]
  constructor
  · rintro ⟨v', j, hq, hr, hs⟩
    rw [C42_specs_iff_partial hr] at hs
    rw [C42_result_iff_partial hv hn hq] at hr
    obtain rfl := effect_qualifyTemplateData h v _ _ _ hq
    exact ⟨⟨v', _, hq⟩, hr, hs⟩
  · rintro ⟨⟨v', j, hq⟩, hr, hs⟩
    obtain rfl := effect_qualifyTemplateData h v _ _ _ hq
    have hr := (C42_result_iff_partial hv hn hq).2 hr
    exact ⟨v', _, hq, hr, (C42_specs_iff_partial hr).2 hs⟩

/-- A struct by value, with an unexported field, in which nothing changes: it cannot even be read. -/
def exReadHidden : TVal := .struct [(true, .scalar 1), (false, .scalar 2)]

/-- The same behind a pointer, with a symbol that needs a new package name in the last field. -/
def exSetHidden : TVal := .ptr (.struct [(false, .scalar 2), (true, .symbol (exSymIn []))])

/-- The same, but the symbol has the right name already. -/
def exKeepHidden : TVal := .ptr (.struct [(false, .scalar 2), (true, .symbol (exSymIn (b! "a")))])

example : ¬ exReadHidden.Copyable {} (fun _ => b! "a") false := by
  simp [exReadHidden, TVal.Copyable, CopyableFields]

example : ¬ exSetHidden.Copyable {} (fun _ => b! "a") false := by
  simp [exSetHidden, TVal.Copyable, requalifyFields, TVal.requalify, Symbol.requalify, exSymIn]

example : exKeepHidden.Copyable {} (fun _ => b! "a") false := by
  simp [exKeepHidden, TVal.Copyable, CopyableFields, requalifyFields, TVal.requalify, Symbol.requalify, exSymIn]

example : (qualifyTemplateData {} exReadHidden (newImportsFor (b! "x/p"))).1 = .panic ∧
    (qualifyTemplateData {} exSetHidden (newImportsFor (b! "x/p"))).1 = .panic ∧
    (qualifyTemplateData {} exKeepHidden (newImportsFor (b! "x/p"))).1 = .ok exKeepHidden := ⟨rfl, rfl, rfl⟩

/-- A map whose keys become the same symbol, and one whose keys stay as they are (in it is a pointer to
an interface with a symbol of the first map's kind). -/
def exKeysMeet : TVal := .map [(.symbol (exSymIn (b! "a")), .scalar 1), (.symbol (exSymIn []), .scalar 2)]
def exKeysStay : TVal := .map [(.scalar 1, .iface acceptsAll (.symbol (exSymIn []))), (.scalar 2, .iface acceptsAll exKeepHidden)]

example : ¬ exKeysMeet.Preserved {} (fun _ => b! "a") := by
  intro h
  simp only [exKeysMeet, TVal.Preserved] at h
  have h1 : requalifyEntries {} (fun _ => b! "a") [(.symbol (exSymIn (b! "a")), .scalar 1), (.symbol (exSymIn []), .scalar 2)] =
      [(.symbol (exSymIn (b! "a")), .scalar 1), (.symbol (exSymIn (b! "a")), .scalar 2)] := rfl
  rw [h1] at h
  have h2 := h.2 (by simp [exSymIn])
  exact absurd (show false = true from h2) Bool.false_ne_true

example : exKeysStay.Preserved {} (fun _ => b! "a") := by
  simp only [exKeysStay, exKeepHidden, TVal.Preserved, PreservedEntries, PreservedFields]
  exact ⟨by simp [TVal.isIface], fun _ => rfl⟩

example : ∃ v' j, qualifyTemplateData {} exKeysStay (newImportsFor (b! "x/p")) = (.ok v', j) ∧
    (TVal.iface acceptsAll exKeysStay).requalify {} j.qualifierOf = .iface acceptsAll v' :=
  ⟨_, _, rfl, rfl⟩

/-- The type that is declared in x/a, next to a symbol of a package of the same name that comes first or last: in a
file of x/p the type can stay in the second case only. -/
def exSpecSecond : TVal := .slice [.iface acceptsAll (.symbol ⟨⟨b! "y/a", b! "a"⟩, b! "U"⟩), .iface acceptsAll (.ptr (.spec (.type 1)))]
def exSpecFirst : TVal := .slice [.iface acceptsAll (.ptr (.spec (.type 1))), .iface acceptsAll (.symbol ⟨⟨b! "y/a", b! "a"⟩, b! "U"⟩)]

example : (qualifyTemplateData exDeclared exSpecSecond (newImportsFor (b! "x/p"))).1 =
      .ok (.slice [.iface acceptsAll (.symbol ⟨⟨b! "y/a", b! "a"⟩, b! "U"⟩), .iface acceptsAll (.ptr (.specCopy (.type 1) (b! "a1")))]) ∧
    (qualifyTemplateData exDeclared exSpecFirst (newImportsFor (b! "x/p"))).1 =
      .ok (.slice [.iface acceptsAll (.ptr (.spec (.type 1))), .iface acceptsAll (.symbol ⟨⟨b! "y/a", b! "a1"⟩, b! "U"⟩)]) :=
  ⟨by rfl, by rfl⟩

example : (qualifyTemplateData exDeclared exSpecSecond (newImportsFor (b! "x/p"))).2.importSpecs =
    [⟨b! "a1", b! "x/a"⟩, ⟨[], b! "y/a"⟩] := by rfl

example : exSpecFirst.mentions exDeclared = [⟨b! "x/a", b! "a"⟩, ⟨b! "y/a", b! "a"⟩] := by rfl

example : SpecsNamed exDeclared (fun p => if p = b! "x/a" then b! "a" else b! "a1") exSpecFirst ∧
    ¬ SpecsNamed exDeclared (fun p => if p = b! "x/a" then b! "a1" else b! "a") exSpecSecond := by
  have hp : (SpecRef.type 1).package exDeclared = some ⟨b! "x/a", b! "a"⟩ := rfl
  constructor
  · intro x hx
    obtain rfl : x = (.type 1, none) := by simpa [exSpecFirst, TVal.shownSpecs, shownSpecsElems] using hx
    simp [shownPackage, hp]
  · intro h
    have := h (.type 1, none) (by simp [exSpecSecond, TVal.shownSpecs, shownSpecsElems]) _ hp (by simp)
    simp at this

/-- a spec that is not there (no such file can be built in Go: the address is dangling) -/
example : ¬ (TVal.ptr (.spec (.type 7))).Copyable exDeclared (fun _ => b! "a") false := by
  simp only [TVal.Copyable]
  decide

end Gopoet
