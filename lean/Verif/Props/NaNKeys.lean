import Verif.Proof.DataNaNBlank
import Verif.Props.Purego
/-!
# Property C79: NaN in the keys of maps in template data
-/

namespace Gopoet
open Imports

/-! ## C79 -/

/-- The property in full: all references in the data get the package names of the imports and nothing
else is changed, also in maps that have keys with NaN in them. -/
def C79_full : Prop := ∀ (nan : Nat → Bool) (h : Heap) (v v' : TVal) (i j : Imports), v.noSpecs = true →
  (TVal.iface acceptsAll v).validTypes = true → v.flatPtrs = true → v.plainKeys = true → v.distinctKeys = true →
  qualifyTemplateDataNaN nan h v i = (.ok v', j) →
  (TVal.iface acceptsAll v).requalify h j.qualifierOf = .iface acceptsAll v'

/-- C79: without NaN in keys, this is the function that the other properties are about. -/
theorem C79_no_nan (nan : Nat → Bool) (h : Heap) (v : TVal) (hv : v.noNaNKeys nan = true) :
    qualifyTemplateDataNaN nan h v = qualifyTemplateData h v := by
  rw [qualifyTemplateDataNaN, qualifyTemplateData,
    nan_none nan h true (.iface acceptsAll v) (by simpa [TVal.noNaNKeys] using hv)]
  rfl

/-- C79: the values at keys with NaN are not looked at: with other values there, the imports are the same
and the result is the same, with the other values where the entries are still there. -/
theorem C79_not_seen (nan : Nat → Bool) (h : Heap) (v : TVal) (f : TVal → TVal) (i : Imports) :
    qualifyTemplateDataNaN nan h (v.mapNaN nan f) i
      = ((qualifyTemplateDataNaN nan h v i).1.bind fun r => .ok (r.mapNaN nan f),
          (qualifyTemplateDataNaN nan h v i).2) := by
  refine Abreast.eq_map ?_ i
  rw [qualifyTemplateDataNaN, qualifyTemplateDataNaN]
  have h1 := mapNaN_abreast nan h f true (.iface acceptsAll v)
  rw [TVal.mapNaN] at h1
  refine h1.bind fun a b hab => ?_
  subst hab
  obtain ⟨a, c⟩ := a
  cases a <;> exact .pure rfl

theorem nanIface_shape {nan : Nat → Bool} {h : Heap} {addr : Bool} {acc : Accepts} {v : TVal} {r : TVal × Bool}
    {i j : Imports} (hq : qualifyDataNaN nan h addr (.iface acc v) i = (.ok r, j)) : ∃ w, r.1 = .iface acc w := by
  cases hc : v.isConv with
  | true =>
    rw [nan_leaf nan h addr (by simpa [TVal.leaf] using hc)] at hq
    exact qualifyData_iface_shape hq
  | false =>
    rw [nan_iface _ _ _ _ hc] at hq
    obtain ⟨r', k, _, h2⟩ := IM.bind_eq_ok hq
    obtain ⟨rfl, _⟩ := pure_eq_ok h2
    exact ⟨_, rfl⟩

/-- C79: a map is returned either as it was, or without all its entries at keys with NaN. -/
theorem C79_kept_or_lost {nan : Nat → Bool} {h : Heap} {es : List (TVal × TVal)} {v' : TVal} {i j : Imports}
    (hq : qualifyTemplateDataNaN nan h (.map es) i = (.ok v', j)) :
    v' = .map es ∨ ∃ m, v' = .map m ∧ ∀ e ∈ m, e.1.hasNaN nan = false := by
  rw [qualifyTemplateDataNaN] at hq
  obtain ⟨⟨r, c⟩, k, h1, hq⟩ := IM.bind_eq_ok hq
  rw [nan_iface _ _ _ _ rfl] at h1
  obtain ⟨⟨w, d⟩, k', h2, h3⟩ := IM.bind_eq_ok h1
  obtain ⟨h3, rfl⟩ := pure_eq_ok h3
  cases h3
  obtain ⟨rfl, rfl⟩ := pure_eq_ok hq
  rw [qualifyDataNaN] at h2
  obtain ⟨⟨es', e⟩, k2, h4, h5⟩ := IM.bind_eq_ok h2
  cases e with
  | false =>
    obtain ⟨h5, rfl⟩ := pure_eq_ok h5
    cases h5
    exact .inl rfl
  | true =>
    obtain ⟨h5, rfl⟩ := pure_eq_ok h5
    cases h5
    exact .inr ⟨_, rfl, noNaN_setAll (noNaN_entries nan h es i _ _ h4)⟩

/-- C79: apart from the entries at keys with NaN, the imports and the result are those for data with a
number in place of each value at such a key; there is a panic if and only if there is one for that. -/
theorem C79_like_numbers (nan : Nat → Bool) (h : Heap) (v : TVal) (i : Imports) (hv : v.flatNaN nan = true) :
    OutcomesRelated (fun a b => a.dropNaN nan = b.dropNaN nan) (qualifyTemplateDataNaN nan h v i)
      (qualifyTemplateData h (v.mapNaN nan fun _ => .scalar 0) i) := by
  have h1 := blank_abreast nan h true (.iface acceptsAll v) (by simpa [TVal.flatNaN] using hv) i
  rw [TVal.mapNaN] at h1
  rw [qualifyTemplateDataNaN, qualifyTemplateData, IM.bind_apply, IM.bind_apply]
  rcases hx : qualifyDataNaN nan h true (.iface acceptsAll v) i with ⟨⟨a, c⟩ | _ | _, k⟩ <;>
    rcases hy : qualifyData h true (.iface acceptsAll (v.mapNaN nan fun _ => .scalar 0)) i with ⟨⟨b, d⟩ | _ | _, l⟩ <;>
    rw [hx, hy] at h1 <;> cases h1
  · rename_i hab
    obtain ⟨w, hw⟩ := nanIface_shape hx
    obtain ⟨w', hw'⟩ := qualifyData_iface_shape hy
    dsimp only at hw hw'
    subst hw hw'
    simp only [TVal.dropNaN, TVal.iface.injEq, true_and] at hab
    exact .ok _ hab.1
  · exact .panic _
  · exact .hang _

/-- C79, as far as it holds: if it returns, then the references outside of the entries with NaN in their
keys have the package names of the imports and nothing else in these parts of the data has changed.
Missing: the entries with NaN (`C79_full_fails`, `C79_full_fails_for_entries`); pointers to interfaces and
keys that become equal, as in C42. -/
theorem C79_result_partial {nan : Nat → Bool} {h : Heap} {v v' : TVal} {i j : Imports} (hn : v.flatNaN nan = true)
    (hv : (TVal.iface acceptsAll (v.mapNaN nan fun _ => .scalar 0)).validTypes = true)
    (hf : (v.mapNaN nan fun _ => .scalar 0).flatPtrs = true)
    (hq : qualifyTemplateDataNaN nan h v i = (.ok v', j))
    (hd : ((TVal.iface acceptsAll (v.mapNaN nan fun _ => .scalar 0)).requalify h j.qualifierOf).distinctKeys = true) :
    ((TVal.iface acceptsAll (v.mapNaN nan fun _ => .scalar 0)).requalify h j.qualifierOf).dropNaN nan
      = .iface acceptsAll (v'.dropNaN nan) := by
  have h1 := C79_like_numbers nan h v i hn
  rw [hq] at h1
  rcases hy : qualifyTemplateData h (v.mapNaN nan fun _ => .scalar 0) i with ⟨b | _ | _, l⟩ <;> rw [hy] at h1 <;> cases h1
  rename_i hab
  rw [C42_result_partial hv hf hy hd, TVal.dropNaN, hab]

/-- Scalar 7 is NaN in the examples. -/
def exNaN (n : Nat) : Bool := n == 7

/-- A map with a reference at NaN. -/
def exNaNMap : TVal := .map [(.scalar 7, .symbol (exSymIn []))]

/-- C79 fails: a reference at NaN is not seen, so that it does not get the name of its package (here `a`,
by another reference), and the package is not imported. -/
theorem C79_full_fails : ¬ C79_full := by
  intro hall
  have h1 := hall exNaN {} (.slice [exNaNMap, .symbol (exSymIn [])]) (.slice [exNaNMap, .symbol (exSymIn (b! "a"))])
    (newImportsFor (b! "x/p"))
    (qualifyTemplateDataNaN exNaN {} (.slice [exNaNMap, .symbol (exSymIn [])]) (newImportsFor (b! "x/p"))).2
    rfl rfl rfl rfl rfl (Prod.ext (by rfl) rfl)
  have h2 : (TVal.iface acceptsAll (.slice [exNaNMap, .symbol (exSymIn [])])).requalify {}
      (qualifyTemplateDataNaN exNaN {} (.slice [exNaNMap, .symbol (exSymIn [])]) (newImportsFor (b! "x/p"))).2.qualifierOf
      = .iface acceptsAll (.slice [.map [(.scalar 7, .symbol (exSymIn (b! "a")))], .symbol (exSymIn (b! "a"))]) := by rfl
  rw [h2] at h1
  simp only [exNaNMap, TVal.iface.injEq, true_and, TVal.slice.injEq, TVal.map.injEq, List.cons.injEq, Prod.mk.injEq,
    TVal.symbol.injEq, and_true] at h1
  exact absurd h1 (by decide +kernel)

/-- Without another reference, the package is not imported. -/
example : qualifyTemplateDataNaN exNaN {} exNaNMap (newImportsFor (b! "x/p")) = (.ok exNaNMap, newImportsFor (b! "x/p")) := by
  rfl

/-- C79 fails in another way: if something else in the map changes, entries at NaN are lost. -/
theorem C79_full_fails_for_entries : ∃ (v v' : TVal) (i j : Imports), v.noSpecs = true ∧
    (TVal.iface acceptsAll v).validTypes = true ∧ v.flatPtrs = true ∧ v.plainKeys = true ∧ v.distinctKeys = true ∧
    v = .map [(.scalar 7, .scalar 1), (.scalar 2, .symbol (exSymIn []))] ∧
    qualifyTemplateDataNaN exNaN {} v i = (.ok v', j) ∧ v' = .map [(.scalar 2, .symbol (exSymIn (b! "a")))] :=
  ⟨_, _, newImportsFor (b! "x/p"), _, rfl, rfl, rfl, rfl, rfl, rfl, Prod.ext (by rfl) rfl, rfl⟩

/-- The ordinary case, for comparison. -/
example : (qualifyTemplateDataNaN exNaN {} (.map [(.scalar 6, .scalar 1), (.scalar 2, .symbol (exSymIn []))])
      (newImportsFor (b! "x/p"))).1
    = .ok (.map [(.scalar 6, .scalar 1), (.scalar 2, .symbol (exSymIn (b! "a")))]) := by rfl
/-- A key that is a struct with NaN and a reference: the reference is seen, and the entry is lost. -/
example : (qualifyTemplateDataNaN exNaN {} (.map [(.struct [(true, .scalar 7), (true, .symbol (exSymIn []))], .scalar 1)])
      (newImportsFor (b! "x/p"))).1 = .ok (.map []) := by rfl
/-- Only the map itself is concerned: a map with NaN next to a reference is kept. -/
example : (qualifyTemplateDataNaN exNaN {} (.slice [exNaNMap, .symbol (exSymIn [])]) (newImportsFor (b! "x/p"))).1
    = .ok (.slice [exNaNMap, .symbol (exSymIn (b! "a"))]) := by rfl
example : (TVal.slice [exNaNMap, .symbol (exSymIn [])]).flatNaN exNaN = true ∧
    (TVal.slice [exNaNMap, .symbol (exSymIn [])]).noNaNKeys exNaN = false ∧
    (TVal.slice [exNaNMap, .symbol (exSymIn [])]).dropNaN exNaN = .slice [.map [], .symbol (exSymIn [])] :=
  ⟨by rfl, by rfl, by rfl⟩

end Gopoet
