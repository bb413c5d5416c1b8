import Verif.Proof.CopyablePureLemmas
import Verif.Props.Copyable
/-!
# Property C59: template data in builds without `unsafe`
-/

namespace Gopoet
open Imports

/-! ## C59 -/

/-- The property in full: without `unsafe`, the references in exported fields get the package names of the
imports, and unexported fields are ignored: their values have no influence, and are kept. -/
def C59_full : Prop := ∀ (h : Heap) (v : TVal) (i : Imports), v.noSpecs = true →
  (TVal.iface acceptsAll v).validTypes = true → v.flatPtrs = true → v.plainKeys = true → v.distinctKeys = true →
  ∃ v' j, qualifyTemplateDataPure h v i = (.ok v', j) ∧
    (TVal.iface acceptsAll v.cover).requalify h j.qualifierOf = .iface acceptsAll v'.cover ∧
    ∀ f, qualifyTemplateDataPure h (v.mapHidden f) i = (.ok (v'.mapHidden f), j)

/-- C59: without unexported fields, it makes no difference whether the build has `unsafe`. -/
theorem C59_exported_fields (h : Heap) (v : TVal) (hv : v.exported = true) :
    qualifyTemplateDataPure h v = qualifyTemplateData h v := by
  rw [qualifyTemplateDataPure, qualifyTemplateData,
    pure_exported h true (.iface acceptsAll v) (by simpa [TVal.exported] using hv)]
  rfl

/-- C59: what is in unexported fields has no influence on the result or the imports, and is kept: with
other values there the result is the same, with the same other values. -/
theorem C59_hidden_fields (h : Heap) (v : TVal) (f : TVal → TVal) (i : Imports) :
    qualifyTemplateDataPure h (v.mapHidden f) i
      = ((qualifyTemplateDataPure h v i).1.bind fun r => .ok (r.mapHidden f),
          (qualifyTemplateDataPure h v i).2) := by
  have key : Image False (TVal.mapHidden f) (qualifyTemplateDataPure h v)
      (qualifyTemplateDataPure h (v.mapHidden f)) := by
    rw [qualifyTemplateDataPure, qualifyTemplateDataPure]
    have h1 := image_pure h f true (.iface acceptsAll v)
    rw [TVal.mapHidden] at h1
    refine h1.bind fun r => ?_
    obtain ⟨r, c⟩ := r
    cases r <;> exact .pure _ _
  rcases key i with ⟨h, _⟩ | h
  · exact h.elim
  · exact h

theorem pureIface_shape {h : Heap} {addr : Bool} {acc : Accepts} {v : TVal} {r : TVal × Bool} {i j : Imports}
    (hq : qualifyDataPure h addr (.iface acc v) i = (.ok r, j)) : ∃ w, r.1 = .iface acc w := by
  cases hc : v.isConv with
  | true =>
    rw [pure_leaf h addr (by simpa [TVal.leaf] using hc)] at hq
    cases v <;> simp only [TVal.isConv, Bool.false_eq_true] at hc <;> exact qualifyData_iface_shape hq
  | false =>
    rw [pure_iface _ _ _ hc] at hq
    obtain ⟨r', k, _, h2⟩ := IM.bind_eq_ok hq
    obtain ⟨rfl, _⟩ := pure_eq_ok h2
    exact ⟨_, rfl⟩

/-- C59: if it returns, then it does what the ordinary build does for data with numbers in exported
fields in place of unexported ones. -/
theorem C59_like_numbers {h : Heap} {v v' : TVal} {i j : Imports} (hk : v.exportedKeys = true)
    (hq : qualifyTemplateDataPure h v i = (.ok v', j)) :
    qualifyTemplateData h v.cover i = (.ok v'.cover, j) := by
  rw [qualifyTemplateDataPure] at hq
  obtain ⟨⟨r, c⟩, k, h1, hq⟩ := IM.bind_eq_ok hq
  obtain ⟨w, hw⟩ := pureIface_shape h1
  dsimp only at hw hq
  subst hw
  obtain ⟨rfl, rfl⟩ := pure_eq_ok hq
  have h2 := cover_pure h true (.iface acceptsAll v) (by simpa [TVal.exportedKeys] using hk) i
  rw [h1] at h2
  rcases h2 with ⟨_, h2⟩ | h2
  · simp at h2
  · rw [TVal.cover] at h2
    rw [qualifyTemplateData, IM.bind_ok h2]
    rfl

/-- C59, as far as it holds: if it returns, references in exported fields have the package names of the
imports and nothing else has changed. Missing: that it returns (`C59_full_fails`); pointers to
interfaces; keys that become equal. -/
theorem C59_result_partial {h : Heap} {v v' : TVal} {i j : Imports} (hk : v.exportedKeys = true)
    (hv : (TVal.iface acceptsAll v.cover).validTypes = true)
    (hf : v.cover.flatPtrs = true) (hq : qualifyTemplateDataPure h v i = (.ok v', j))
    (hd : ((TVal.iface acceptsAll v.cover).requalify h j.qualifierOf).distinctKeys = true) :
    (TVal.iface acceptsAll v.cover).requalify h j.qualifierOf = .iface acceptsAll v'.cover ∧
    ∀ f, qualifyTemplateDataPure h (v.mapHidden f) i = (.ok (v'.mapHidden f), j) := by
  refine ⟨C42_result_partial hv hf (C59_like_numbers hk hq) hd, fun f => ?_⟩
  rw [C59_hidden_fields, hq]
  rfl

/-- C59: it returns if and only if the data can be rebuilt when the packages mentioned in exported fields have been
registered. -/
theorem C59_returns_iff_partial {h : Heap} {v : TVal} {i : Imports} (hk : v.exportedKeys = true)
    (hv : (TVal.iface acceptsAll v.cover).validTypes = true) :
    (∃ v' j, qualifyTemplateDataPure h v i = (.ok v', j)) ↔
      v.CopyablePure h (i.after (registerAll ((TVal.iface acceptsAll v.cover).mentions h))).qualifierOf false := by
  have hd := decides_pure h true (.iface acceptsAll v) (by simpa [TVal.exportedKeys] using hk) hv i _ (.refl _)
  simp only [TVal.CopyablePure, TVal.cover] at hd
  rw [← hd]
  constructor
  · rintro ⟨v', j, hq⟩
    obtain ⟨a, j', h1, -⟩ := IM.bind_eq_ok hq
    exact ⟨a, j', h1⟩
  · rintro ⟨⟨r, c⟩, j, h1⟩
    obtain ⟨w, hw⟩ := pureIface_shape h1
    dsimp only at hw
    subst hw
    exact ⟨w, j, by rw [qualifyTemplateDataPure, IM.bind_ok h1]; rfl⟩

/-- C59: so exactly this data is qualified as it should be: it can be rebuilt, keeps its entries and its pointers to
interfaces, and holds no spec whose package needs another name. -/
theorem C59_exactly_partial {h : Heap} {v : TVal} {i : Imports} (hk : v.exportedKeys = true)
    (hv : (TVal.iface acceptsAll v.cover).validTypes = true)
    (hn : (TVal.iface acceptsAll v.cover).flatIfaces = true) :
    (∃ v' j, qualifyTemplateDataPure h v i = (.ok v', j) ∧
      (TVal.iface acceptsAll v.cover).requalify h j.qualifierOf = .iface acceptsAll v'.cover ∧
      SpecsKept h j.qualifierOf v.cover v'.cover ∧
      ∀ f, qualifyTemplateDataPure h (v.mapHidden f) i = (.ok (v'.mapHidden f), j)) ↔
    v.CopyablePure h (i.after (registerAll ((TVal.iface acceptsAll v.cover).mentions h))).qualifierOf false ∧
      v.cover.Preserved h (i.after (registerAll ((TVal.iface acceptsAll v.cover).mentions h))).qualifierOf ∧
      SpecsNamed h (i.after (registerAll ((TVal.iface acceptsAll v.cover).mentions h))).qualifierOf v.cover := by
  rw [← C59_returns_iff_partial hk hv]
  constructor
  · rintro ⟨v', j, hq, hr, hs, -⟩
    rw [C42_specs_iff_partial hr] at hs
    have hc := C59_like_numbers hk hq
    rw [C42_result_iff_partial hv hn hc] at hr
    obtain rfl := C42_imports hc
    exact ⟨⟨v', _, hq⟩, hr, hs⟩
  · rintro ⟨⟨v', j, hq⟩, hr, hs⟩
    have hc := C59_like_numbers hk hq
    obtain rfl := C42_imports hc
    have hr := (C42_result_iff_partial hv hn hc).2 hr
    refine ⟨v', _, hq, hr, (C42_specs_iff_partial hr).2 hs, fun f => ?_⟩
    rw [C59_hidden_fields, hq]
    rfl

example : ¬ (TVal.ptr (.struct [(true, .symbol (exSymIn [])), (false, .scalar 1)])).CopyablePure {} (fun _ => b! "a") false := by
  simp [TVal.CopyablePure, coverFields, TVal.cover, requalifyFields, TVal.requalify, Symbol.requalify, exSymIn]
example : (TVal.struct [(true, .scalar 1), (false, .symbol (exSymIn []))]).CopyablePure {} (fun _ => b! "a") false := by
  simp [TVal.CopyablePure, CopyablePureFields, coverFields, TVal.cover, requalifyFields, TVal.requalify]

/-- C59 fails: a struct that has an unexported field cannot be copied, so that there is a panic if a
reference in another field changes. -/
theorem C59_full_fails : ¬ C59_full := by
  intro hall
  obtain ⟨v', j, h1, -⟩ := hall {} (.ptr (.struct [(true, .symbol (exSymIn [])), (false, .scalar 1)]))
    (newImportsFor (b! "x/p")) rfl rfl rfl rfl rfl
  have h2 : (qualifyTemplateDataPure {} (.ptr (.struct [(true, .symbol (exSymIn [])), (false, .scalar 1)]))
    (newImportsFor (b! "x/p"))).1 = .panic := by rfl
  rw [h1] at h2
  simp at h2

/-- A reference in an unexported field is not seen: no panic (compare
`C42_full_fails_for_unexported_fields`), and nothing is imported. -/
example : qualifyTemplateDataPure {} (.ptr (.struct [(false, .symbol (exSymIn []))])) (newImportsFor (b! "x/p"))
    = (.ok (.ptr (.struct [(false, .symbol (exSymIn []))])), newImportsFor (b! "x/p")) := by rfl
/-- A struct with an unexported field that is held by value panics only in the ordinary build. -/
example : (qualifyTemplateData {} (.struct [(false, .scalar 1)]) (newImportsFor (b! "x/p"))).1 = .panic ∧
    (qualifyTemplateDataPure {} (.struct [(false, .scalar 1)]) (newImportsFor (b! "x/p"))).1
      = .ok (.struct [(false, .scalar 1)]) := ⟨by rfl, by rfl⟩
/-- An exported field next to a struct with an unexported one. -/
example : (qualifyTemplateDataPure {} (.slice [.struct [(true, .symbol (exSymIn []))],
      .struct [(false, .symbol (exSymIn []))]]) (newImportsFor (b! "x/p"))).1
    = .ok (.slice [.struct [(true, .symbol (exSymIn (b! "a")))], .struct [(false, .symbol (exSymIn []))]]) := by rfl
example : (TVal.struct [(true, .scalar 1), (false, .symbol (exSymIn []))]).cover
    = .struct [(true, .scalar 1), (true, .scalar 0)] := by rfl

end Gopoet
