import Mathlib.Data.List.Sort
import Mathlib.Data.List.Perm.Basic
import Mathlib.Data.List.Nodup
import Verif.Proof.ImportsLemmas
/-! Lemmas about ImportSpecs. -/

namespace Gopoet

/-- Go's string comparison is the lexicographic order on bytes. -/
theorem goStringLt_iff : ∀ (s t : GoString), goStringLt s t = true ↔ s < t
  | [], [] => by simp [goStringLt]
  | _ :: _, [] => by simp [goStringLt]
  | [], _ :: _ => by simp [goStringLt]
  | a :: s, b :: t => by
    simp only [goStringLt, Bool.or_eq_true, Bool.and_eq_true, decide_eq_true_eq, beq_iff_eq,
      goStringLt_iff s t, List.cons_lt_cons_iff]

theorem insertSpec_perm (x : ImportSpec) : ∀ l, (insertSpec x l).Perm (x :: l)
  | [] => .refl _
  | y :: l => by
    simp only [insertSpec]
    split
    · exact .refl _
    · exact ((insertSpec_perm x l).cons y).trans (List.Perm.swap x y l)

theorem sortSpecs_perm : ∀ l, (sortSpecs l).Perm l
  | [] => .refl _
  | x :: l => (insertSpec_perm x _).trans ((sortSpecs_perm l).cons x)

/-- Sorted by import path: no element is preceded by one with a greater path. -/
def SortedByPath (l : List ImportSpec) : Prop := l.Pairwise (fun a b => ¬ b.importPath < a.importPath)

theorem insertSpec_sorted {x : ImportSpec} : ∀ {l}, SortedByPath l → SortedByPath (insertSpec x l)
  | [], _ => by simp [insertSpec, SortedByPath]
  | y :: l, h => by
    simp only [SortedByPath, List.pairwise_cons] at h
    simp only [insertSpec]
    split
    · rename_i hlt
      rw [goStringLt_iff] at hlt
      simp only [SortedByPath, List.pairwise_cons, List.mem_cons]
      refine ⟨?_, h⟩
      rintro z (rfl | hz)
      · exact List.lt_asymm hlt
      · intro hzx
        exact h.1 z hz (List.lt_trans hzx hlt)
    · rename_i hlt
      rw [goStringLt_iff] at hlt
      simp only [SortedByPath, List.pairwise_cons]
      refine ⟨?_, insertSpec_sorted h.2⟩
      intro z hz
      rcases List.mem_cons.1 ((insertSpec_perm x l).mem_iff.1 hz) with rfl | hz
      · exact hlt
      · exact h.1 z hz

theorem sortSpecs_sorted : ∀ l, SortedByPath (sortSpecs l)
  | [] => by simp [sortSpecs, SortedByPath]
  | _ :: l => insertSpec_sorted (sortSpecs_sorted l)

theorem goString_trichotomy (a b : GoString) : a < b ∨ a = b ∨ b < a := by
  rcases Std.lt_trichotomy a b with h | h | h
  · exact .inl h
  · exact .inr (.inl h)
  · exact .inr (.inr h)

/-- With pairwise different paths, a list of specs has only one sorted permutation. -/
theorem sorted_unique {l l' : List ImportSpec} (hp : l.Perm l') (hs : SortedByPath l)
    (hs' : SortedByPath l') (hn : (l.map (·.importPath)).Nodup) : l = l' := by
  refine List.Perm.eq_of_pairwise (le := fun (a b : ImportSpec) => ¬ b.importPath < a.importPath) ?_ hs hs' hp
  intro a b ha hb h1 h2
  have heq : a.importPath = b.importPath := by
    rcases goString_trichotomy a.importPath b.importPath with h | h | h
    · exact absurd h h2
    · exact h
    · exact absurd h h1
  exact List.inj_on_of_nodup_map hn ha (hp.mem_iff.2 hb) heq

theorem specs_paths (m : GoMap GoString ImportDef) :
    (m.map specOf).map (·.importPath) = m.keys := by
  simp [GoMap.keys, specOf, Function.comp_def]

theorem importSpecs_perm (i : Imports) : i.importSpecs.Perm (i.importsByPath.map specOf) :=
  sortSpecs_perm _

theorem importSpecs_nodup {i : Imports} (h : Inv i) : (i.importSpecs.map (·.importPath)).Nodup := by
  have := ((importSpecs_perm i).map (·.importPath)).nodup_iff
  rw [this, specs_paths]
  exact h.nodupPaths

theorem mem_importSpecs {i : Imports} (h : Inv i) (s : ImportSpec) :
    s ∈ i.importSpecs ↔ ∃ d, i.importsByPath.get s.importPath = some d ∧
      s.packageAlias = if d.isAlias then d.packageName else [] := by
  rw [(importSpecs_perm i).mem_iff, List.mem_map]
  constructor
  · rintro ⟨⟨p, d⟩, hm, rfl⟩
    exact ⟨d, GoMap.get_of_mem h.nodupPaths hm, rfl⟩
  · rintro ⟨d, hg, ha⟩
    refine ⟨(s.importPath, d), GoMap.mem_of_get hg, ?_⟩
    cases s
    simp_all [specOf]

theorem mem_importPaths (i : Imports) (p : GoString) :
    p ∈ i.importSpecs.map (·.importPath) ↔ i.importsByPath.get p ≠ none := by
  rw [((importSpecs_perm i).map (·.importPath)).mem_iff, specs_paths, ne_eq,
    GoMap.get_eq_none_iff, not_not]

theorem importSpecs_length (i : Imports) : i.importSpecs.length = i.importsByPath.length := by
  rw [(importSpecs_perm i).length_eq, List.length_map]

/-- Two tables with the same lookups are permutations of each other. -/
theorem perm_of_get_eq {m m' : GoMap GoString ImportDef} (hn : m.keys.Nodup) (hn' : m'.keys.Nodup)
    (h : ∀ p, m.get p = m'.get p) : List.Perm m m' := by
  refine (List.perm_ext_iff_of_nodup (List.Nodup.of_map _ hn) (List.Nodup.of_map _ hn')).2 ?_
  rintro ⟨p, d⟩
  constructor
  · intro hm; exact GoMap.mem_of_get ((h p) ▸ GoMap.get_of_mem hn hm)
  · intro hm; exact GoMap.mem_of_get ((h p).symm ▸ GoMap.get_of_mem hn' hm)

theorem importSpecs_eq_of_get {i j : Imports} (hi : Inv i) (hj : Inv j)
    (h : ∀ p, i.importsByPath.get p = j.importsByPath.get p) : i.importSpecs = j.importSpecs := by
  refine sorted_unique ?_ (sortSpecs_sorted _) (sortSpecs_sorted _) (importSpecs_nodup hi)
  refine (importSpecs_perm i).trans (List.Perm.trans ?_ (importSpecs_perm j).symm)
  exact (perm_of_get_eq hi.nodupPaths hj.nodupPaths h).map _

end Gopoet
