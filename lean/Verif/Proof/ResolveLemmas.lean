import Verif.Proof.SortLemmas
/-!
# What the qualifiers of an Imports mean
-/

namespace Gopoet
open Imports

/-- The names under which packages are known that are imported without an alias are names that `R` allows. -/
def NamesBy (R : GoString → GoString → Prop) (i : Imports) : Prop :=
  ∀ p d, i.importsByPath.get p = some d → d.isAlias = false → R p d.packageName

/-- The packages that are imported without an alias have the names under which they are known. -/
abbrev TrueNames (realName : GoString → GoString) (i : Imports) : Prop := NamesBy (fun p n => n = realName p) i

/-- What an import declaration binds is the name in the table. -/
theorem binds_of_trueNames {realName : GoString → GoString} {i : Imports} (inv : Inv i)
    (htn : TrueNames realName i) : ∀ s ∈ i.importSpecs, ∃ d, i.importsByPath.get s.importPath = some d ∧
      s.binds realName = d.packageName := by
  intro s hs
  obtain ⟨d, hd, ha⟩ := (mem_importSpecs inv s).1 hs
  refine ⟨d, hd, ?_⟩
  unfold ImportSpec.binds
  have hne := inv.nonempty _ _ hd
  cases hal : d.isAlias with
  | true => rw [hal] at ha; simp only [if_true] at ha; rw [ha, if_neg hne]
  | false =>
    rw [hal] at ha
    simp only [Bool.false_eq_true, if_false] at ha
    rw [ha, if_pos rfl, htn _ _ hd hal]

/-- The name of an import is bound by the import declarations to its path only. -/
theorem resolve_of_trueNames {realName : GoString → GoString} {i : Imports} (inv : Inv i)
    (htn : TrueNames realName i) {p : GoString} {d : ImportDef} (hd : i.importsByPath.get p = some d) :
    resolveQualifier realName i.importSpecs d.packageName = [p] := by
  have hbinds := binds_of_trueNames inv htn
  -- a spec binds `q` exactly if its path is `p`
  have hiff : ∀ s ∈ i.importSpecs, (decide (s.binds realName = d.packageName)) = decide (s.importPath = p) := by
    intro s hs
    obtain ⟨d', hd', hb⟩ := hbinds s hs
    simp only [decide_eq_decide]
    constructor
    · intro h
      have e1 := inv.toName _ _ hd'
      have e2 := inv.toName _ _ hd
      rw [← hb, h, e2] at e1
      exact (Option.some.inj e1).symm
    · intro h
      rw [h, hd] at hd'
      rw [hb, Option.some.inj hd']
  rw [resolveQualifier, List.filter_congr hiff]
  have hmem : p ∈ i.importSpecs.map (·.importPath) := by
    rw [mem_importPaths, hd]; simp
  have hnd := importSpecs_nodup inv
  generalize i.importSpecs = specs at hmem hnd
  clear hiff hbinds
  induction specs with
  | nil => simp at hmem
  | cons s l ih =>
    simp only [List.map_cons, List.nodup_cons, List.mem_cons] at hnd hmem
    by_cases hs : s.importPath = p
    · have hnot : ∀ x ∈ l, ¬ (decide (x.importPath = p)) = true := by
        intro x hx hxp
        simp only [decide_eq_true_eq] at hxp
        exact hnd.1 (by rw [hs, ← hxp]; exact List.mem_map.2 ⟨x, hx, rfl⟩)
      rw [List.filter_cons_of_pos (by simpa using hs), List.filter_eq_nil_iff.2 hnot]
      simp [hs]
    · rw [List.filter_cons_of_neg (by simpa using hs)]
      refine ih (hmem.resolve_left (fun h => hs h.symm)) hnd.2


/-- The qualifiers that are bound to a path are those in the table. -/
theorem resolve_iff {realName : GoString → GoString} {i : Imports} (inv : Inv i)
    (htn : TrueNames realName i) {p q : GoString} :
    resolveQualifier realName i.importSpecs q = [p] ↔
      ∃ d, i.importsByPath.get p = some d ∧ d.packageName = q := by
  constructor
  · intro h
    have hm : p ∈ resolveQualifier realName i.importSpecs q := by rw [h]; simp
    obtain ⟨s, hs, rfl⟩ := List.mem_map.1 hm
    obtain ⟨hs, hb⟩ := List.mem_filter.1 hs
    obtain ⟨d, hd, hn⟩ := binds_of_trueNames inv htn s hs
    exact ⟨d, hd, by rw [← hn]; simpa using hb⟩
  · rintro ⟨d, hd, rfl⟩
    exact resolve_of_trueNames inv htn hd

/-- Conversely, if the names of all imports are bound to them, the names are true. -/
theorem trueNames_iff {realName : GoString → GoString} {i : Imports} (inv : Inv i) : TrueNames realName i ↔
    ∀ p d, i.importsByPath.get p = some d → resolveQualifier realName i.importSpecs d.packageName = [p] := by
  refine ⟨fun h p d hd => resolve_of_trueNames inv h hd, fun h p d hd ha => ?_⟩
  have hm : p ∈ resolveQualifier realName i.importSpecs d.packageName := by rw [h p d hd]; simp
  obtain ⟨s, hs, rfl⟩ := List.mem_map.1 hm
  obtain ⟨hs, hb⟩ := List.mem_filter.1 hs
  obtain ⟨d', hd', hal⟩ := (mem_importSpecs inv s).1 hs
  rw [hd] at hd'
  obtain rfl := Option.some.inj hd'
  simp only [ha, Bool.false_eq_true, if_false] at hal
  rw [decide_eq_true_eq, ImportSpec.binds, if_pos hal] at hb
  exact hb.symm

end Gopoet
