import Mathlib.Data.List.Induction
import Verif.Proof.QualifyLemmas
import Verif.Proof.SortLemmas
import Verif.Proof.ResolveLemmas
/-!
# Properties C01–C12 and C14: imports and qualification

`Reachable i` (see `Verif.Spec.Imports`) means: `i` is the state of an Imports after any history of
calls of its exported methods. Results are stated on what those methods return.
-/

namespace Gopoet
open Imports

/-! An example history used below: three packages named foo, one of them actually called foo1. -/

/-- `example.com/a/foo` -/
def exA : GoString := b! "example.com/a/foo"
/-- `example.com/b/foo` -/
def exB : GoString := b! "example.com/b/foo"
/-- `example.com/foo1` -/
def exC : GoString := b! "example.com/foo1"
/-- `example.com/c` -/
def exOwn : GoString := b! "example.com/c"
/-- A symbol of package foo in `exA`. -/
def exSymA : Symbol := ⟨⟨exA, b! "foo"⟩, b! "Bar"⟩
/-- A symbol of package foo in `exB`. -/
def exSymB : Symbol := ⟨⟨exB, b! "foo"⟩, b! "Baz"⟩
/-- A symbol of the own package. -/
def exSymOwn : Symbol := ⟨⟨exOwn, b! "c"⟩, b! "Own"⟩
/-- A type mentioning packages: `map[foo.Bar]func(x ...foo.Baz) error`. -/
def exType : TypeName :=
  .map (.func ⟨[⟨b! "x", .slice (.named exSymB)⟩], [⟨[], errorType⟩], true⟩) (.named exSymA)
/-- An example history. -/
def exHistory : List Call :=
  [.registerImport exC (b! "foo1"), .ensureImported exSymA, .prefixForPackage exB,
   .ensureTypeImported exType]
/-- The state after the example history. -/
def exState : Imports := (newImportsFor exOwn).after exHistory

theorem exState_reachable : Reachable exState := ⟨exOwn, exHistory, rfl⟩

example : exState.importSpecs =
    [⟨[], exA⟩, ⟨b! "foo2", exB⟩, ⟨[], exC⟩] := by decide

/-! ## C01 -/

/-- C01: at any time, PrefixForPackage gives different prefixes to different paths. -/
theorem C01_prefixes_unique {i : Imports} (hi : Reachable i) {p p' a : GoString}
    (h : (prefixFor p i).1 = .ok a) (h' : (prefixFor p' i).1 = .ok a) : p = p' := by
  have inv := hi.inv
  have key : ∀ p, (prefixFor p i).1 = .ok a → (p = i.pkgPath ∧ a = []) ∨
      ∃ d, i.importsByPath.get p = some d ∧ a = d.packageName ++ b! "." := by
    intro p h
    simp only [prefixFor] at h
    by_cases ho : p = i.pkgPath
    · rw [prefixForPackage_own ho] at h
      simp only [Outcome.ok.injEq] at h
      exact .inl ⟨ho, h.symm⟩
    · cases hg : i.importsByPath.get p with
      | none => rw [prefixForPackage_unknown ho hg] at h; simp at h
      | some d =>
        rw [prefixForPackage_known ho hg] at h
        simp only [Outcome.ok.injEq] at h
        exact .inr ⟨d, rfl, h.symm⟩
  rcases key p h with ⟨h1, h2⟩ | ⟨d, h1, h2⟩ <;> rcases key p' h' with ⟨h1', h2'⟩ | ⟨d', h1', h2'⟩
  · rw [h1, h1']
  · rw [h2] at h2'; simp at h2'
  · rw [h2'] at h2; simp at h2
  · have : d.packageName = d'.packageName := List.append_cancel_right (h2.symm.trans h2')
    have e := inv.toName p d h1
    have e' := inv.toName p' d' h1'
    rw [this, e'] at e
    exact (Option.some.inj e).symm

/-- RegisterImport never panics (or loops), and afterwards PrefixForPackage returns what it
returned. -/
theorem registerImport_ok (p n : GoString) (i : Imports) :
    ∃ a j, registerImport p n i = (.ok a, j) ∧ prefixFor p j = (.ok a, j) := by
  simp only [registerImport, prefixFor]
  by_cases ho : p = i.pkgPath
  · exact ⟨_, _, prefixForPackage_own ho, prefixForPackage_own ho⟩
  · cases hg : i.importsByPath.get p with
    | some d => exact ⟨_, _, prefixForPackage_known ho hg, prefixForPackage_known ho hg⟩
    | none =>
      obtain ⟨q, _, hq⟩ := prefixForPackage_new (n := n) ho hg
      refine ⟨_, _, hq, ?_⟩
      exact prefixForPackage_known (d := ⟨q, decide (q ≠ n)⟩) (by exact ho) (by simp [Imports.add])

/-- C01: over time, RegisterImport never returns a prefix it returned for another path. -/
theorem C01_prefixes_unique_over_time {i : Imports} (hi : Reachable i) {p p' n n' a : GoString}
    (history : List Call) (h : (registerImport p n i).1 = .ok a)
    (h' : (registerImport p' n' ((registerImport p n i).2.after history)).1 = .ok a) : p = p' := by
  obtain ⟨a1, j, e1, f1⟩ := registerImport_ok p n i
  rw [e1] at h h'
  simp only [Outcome.ok.injEq] at h
  subst h
  have hj : Reachable j := by
    have := hi.exec (.registerImport p n)
    simp only [Call.exec, e1] at this
    exact this
  obtain ⟨a2, k, e2, f2⟩ := registerImport_ok p' n' (j.after history)
  rw [e2] at h'
  simp only [Outcome.ok.injEq] at h'
  subst h'
  have hk : Reachable k := by
    have := (hj.after history).exec (.registerImport p' n')
    simp only [Call.exec, e2] at this
    exact this
  refine C01_prefixes_unique hk (a := a2) ?_ (by rw [f2])
  -- the prefix of `p` is unchanged from `j` to `k`
  have hext : Ext j k := by
    have := (evolves_call (.registerImport p' n') (j.after history)).ext
    simp only [Call.exec, e2] at this
    exact (evolves_after history j).ext.trans this
  simp only [prefixFor] at f1 ⊢
  by_cases ho : p = j.pkgPath
  · rw [prefixForPackage_own (by rw [hext.own]; exact ho)]
    rw [prefixForPackage_own ho] at f1
    exact congrArg Prod.fst f1
  · cases hg : j.importsByPath.get p with
    | none => rw [prefixForPackage_unknown ho hg] at f1; simp at f1
    | some d =>
      rw [prefixForPackage_known (by rw [hext.own]; exact ho) (hext.keeps p d hg)]
      rw [prefixForPackage_known ho hg] at f1
      exact congrArg Prod.fst f1

/-- C01: a prefix is empty exactly for the own package; otherwise it is a non-empty name and a
dot. -/
theorem C01_prefix_shape {i : Imports} (hi : Reachable i) {p n a : GoString}
    (h : (registerImport p n i).1 = .ok a) :
    (p = i.pkgPath ∧ a = []) ∨ (p ≠ i.pkgPath ∧ ∃ q, q ≠ [] ∧ a = q ++ b! ".") := by
  simp only [registerImport] at h
  by_cases ho : p = i.pkgPath
  · rw [prefixForPackage_own ho] at h
    simp only [Outcome.ok.injEq] at h
    exact .inl ⟨ho, h.symm⟩
  · refine .inr ⟨ho, ?_⟩
    cases hg : i.importsByPath.get p with
    | some d =>
      rw [prefixForPackage_known ho hg] at h
      simp only [Outcome.ok.injEq] at h
      exact ⟨_, hi.inv.nonempty p d hg, h.symm⟩
    | none =>
      obtain ⟨q, hf, hq⟩ := prefixForPackage_new (n := n) ho hg
      rw [hq] at h
      simp only [Outcome.ok.injEq] at h
      exact ⟨q, hf.ne_nil (baseName_ne_nil _), h.symm⟩

/- Three packages whose natural names clash: they get `foo`, `foo2` and `foo1`. -/
example : (prefixFor exA exState).1 = .ok (b! "foo.") ∧ (prefixFor exB exState).1 = .ok (b! "foo2.")
    ∧ (prefixFor exC exState).1 = .ok (b! "foo1.") := by decide
example : (registerImport (b! "x/foo") [] exState).1 = .ok (b! "foo3.") := by decide

/-! ## C02 -/

/-- C02: once RegisterImport returned a prefix for a path, every later call for that path returns
it, without changing the imports. -/
theorem C02_prefix_stable {i j : Imports} {p n a : GoString}
    (h : registerImport p n i = (.ok a, j)) (history : List Call) (n' : GoString) :
    registerImport p n' (j.after history) = (.ok a, j.after history) ∧
    prefixFor p (j.after history) = (.ok a, j.after history) := by
  obtain ⟨a', j', e, f⟩ := registerImport_ok p n i
  rw [h] at e
  obtain ⟨rfl, rfl⟩ : a = a' ∧ j = j' := by simpa using e
  have hext := (evolves_after history j).ext
  simp only [prefixFor, registerImport] at f ⊢
  by_cases ho : p = j.pkgPath
  · rw [prefixForPackage_own ho] at f
    rw [prefixForPackage_own (hext.own ▸ ho), prefixForPackage_own (hext.own ▸ ho)]
    simp_all
  · cases hg : j.importsByPath.get p with
    | none => rw [prefixForPackage_unknown ho hg] at f; simp at f
    | some d =>
      rw [prefixForPackage_known ho hg] at f
      have hne : p ≠ (j.after history).pkgPath := by rw [hext.own]; exact ho
      rw [prefixForPackage_known hne (hext.keeps p d hg),
        prefixForPackage_known hne (hext.keeps p d hg)]
      simp_all

/-- C02, for symbols: once a symbol's package has a prefix, Qualify and EnsureImported of any
symbol of that path use the same package name for ever. -/
theorem C02_symbol_stable {i j : Imports} {s s' : Symbol} (h : ensureImported s i = (.ok s', j))
    (hb : ¬ s.isBuiltin) (history : List Call) (t : Symbol) (ht : ¬ t.isBuiltin)
    (hp : t.package.importPath = s.package.importPath) :
    ∃ t', t'.package = s'.package ∧ t'.name = t.name ∧
      ensureImported t (j.after history) = (.ok t', j.after history) ∧
      qualifyOnly t (j.after history) = (.ok t', j.after history) := by
  simp only [ensureImported, qualifyOnly] at h ⊢
  obtain ⟨j', e, hc⟩ := qualify_ok s true i (.inl rfl)
  rw [h] at e
  obtain ⟨rfl, rfl⟩ : s' = j'.symIn s ∧ j = j' := by simpa using e
  have hext := (evolves_after history j).ext
  generalize j.after history = k at hext ⊢
  have hck := hext.covered hc
  have hct : Covered k t := by
    rcases hck with h | h | h
    · exact absurd h hb
    · exact .inr (.inl (hp ▸ h))
    · exact .inr (.inr (hp ▸ h))
  have both : ∀ r, qualify t r k = (.ok (k.symIn t), k) := by
    intro r
    obtain ⟨k', e', -⟩ := qualify_ok t r k (.inr hct)
    cases r with
    | false =>
      have := (runs_qualify t false k).eq_of_false (by simp)
      rw [e'] at this
      dsimp only at this
      subst this; exact e'
    | true =>
      -- `t` is covered, so nothing is registered
      by_cases ho : t.package.importPath = k.pkgPath
      · have e2 := qualify_of_prefix (r := true) ht (prefixForPackage_own (n := t.package.name)
          (r := true) ho)
        rw [e'] at e2
        obtain ⟨_, rfl⟩ : _ ∧ k' = k := by simpa using e2
        exact e'
      · cases hg : k.importsByPath.get t.package.importPath with
        | none =>
          rcases hct with h | h | h
          · exact absurd h ht
          · exact absurd h ho
          · exact absurd hg h
        | some d =>
          have e2 := qualify_of_prefix (r := true) ht (prefixForPackage_known
            (n := t.package.name) (r := true) ho hg)
          rw [e'] at e2
          obtain ⟨_, rfl⟩ : _ ∧ k' = k := by simpa using e2
          exact e'
  refine ⟨k.symIn t, ?_, ?_, both true, both false⟩
  · rw [← hext.symIn hc]
    have hb' : ¬ (s.package.name = [] ∧ s.package.importPath = []) := hb
    have ht' : ¬ (t.package.name = [] ∧ t.package.importPath = []) := ht
    rw [Imports.symIn, Imports.symIn, Symbol.withPrefix, Symbol.withPrefix, if_neg ht', if_neg hb', hp]
    split <;> rfl
  · unfold Imports.symIn Symbol.withPrefix
    split
    · rfl
    · split <;> rfl

example : (registerImport exB (b! "somethingelse") exState) = (.ok (b! "foo2."), exState) := by decide

/-! ## C03 -/

/-- C03: registering, looking up or qualifying the own package changes nothing and yields the empty
prefix, and the own package is never imported. -/
theorem C03_own_package {own : GoString} {i : Imports} (hi : ReachableFor own i) :
    (∀ n, registerImport own n i = (.ok [], i)) ∧
    prefixFor own i = (.ok [], i) ∧
    (∀ n name, (n ≠ [] ∨ own ≠ []) →
      ensureImported ⟨⟨own, n⟩, name⟩ i = (.ok ⟨⟨own, []⟩, name⟩, i)) ∧
    own ∉ i.importedPaths := by
  have hown := hi.pkgPath
  have hinv := (show Reachable i from ⟨own, hi⟩).inv
  refine ⟨fun n => prefixForPackage_own hown.symm, prefixForPackage_own hown.symm, ?_, ?_⟩
  · intro n name hne
    have hb : ¬ (⟨⟨own, n⟩, name⟩ : Symbol).isBuiltin := by
      rintro ⟨h1, h2⟩
      simp_all
    rw [ensureImported, qualify_of_prefix hb (prefixForPackage_own hown.symm)]
    rfl
  · rw [Imports.importedPaths, mem_importPaths, ← hown]
    simp [hinv.ownAbsent]

example : ensureImported exSymOwn exState = (.ok ⟨⟨exOwn, []⟩, b! "Own"⟩, exState) := by decide

/-! ## C04 -/

/-- A package name is in use: PrefixForPackage returns it for some path. -/
def InUse (i : Imports) (q : GoString) : Prop := ∃ p, (prefixFor p i).1 = .ok (q ++ b! ".")

theorem inUse_iff {i : Imports} (hi : Inv i) (q : GoString) :
    InUse i q ↔ i.pathsByName.get q ≠ none := by
  constructor
  · rintro ⟨p, h⟩
    simp only [prefixFor] at h
    by_cases ho : p = i.pkgPath
    · rw [prefixForPackage_own ho] at h; simp at h
    · cases hg : i.importsByPath.get p with
      | none => rw [prefixForPackage_unknown ho hg] at h; simp at h
      | some d =>
        rw [prefixForPackage_known ho hg] at h
        simp only [Outcome.ok.injEq] at h
        have hq : d.packageName = q := List.append_cancel_right h
        rw [← hq, hi.toName p d hg]; simp
  · intro h
    cases hg : i.pathsByName.get q with
    | none => exact absurd hg h
    | some p =>
      obtain ⟨d, hd, hq⟩ := hi.toPath q p hg
      refine ⟨p, ?_⟩
      have ho : p ≠ i.pkgPath := by rintro rfl; rw [hi.ownAbsent] at hd; simp at hd
      simp only [prefixFor]
      rw [prefixForPackage_known ho hd, hq]

/-- C04: RegisterImport of a new path returns the first candidate (`base`, `base1`, `base2`, ...)
that is not in use, and needs at most one probe more than there are imported packages. -/
theorem C04_first_free_candidate {i : Imports} (hi : Reachable i) {p n : GoString}
    (hown : p ≠ i.pkgPath) (hnew : p ∉ i.importedPaths) :
    ∃ k, k ≤ i.importedPaths.length ∧
      (registerImport p n i).1
        = .ok (candidate (if n = [] then pathBase p else n) k ++ b! ".") ∧
      ¬ InUse i (candidate (if n = [] then pathBase p else n) k) ∧
      ∀ l < k, InUse i (candidate (if n = [] then pathBase p else n) l) := by
  have inv := hi.inv
  rw [Imports.importedPaths, mem_importPaths, ne_eq, not_not] at hnew
  obtain ⟨q, ⟨k, rfl, hfree, hused⟩, hq⟩ := prefixForPackage_new (n := n) hown hnew
  have hb : baseName ⟨p, n⟩ = (if n = [] then pathBase p else n) := rfl
  rw [hb] at hfree hused hq
  refine ⟨k, ?_, by rw [registerImport, hq], ?_, ?_⟩
  · -- the `k` used candidates are `k` different package names in the table
    rw [Imports.importedPaths, List.length_map, importSpecs_length]
    have hsub : ∀ x ∈ (List.range k).map (candidate (if n = [] then pathBase p else n)),
        x ∈ i.importsByPath.map (·.2.packageName) := by
      intro x hx
      obtain ⟨l, hl, rfl⟩ := List.mem_map.1 hx
      have hu := hused l (List.mem_range.1 hl)
      cases hg : i.pathsByName.get (candidate (if n = [] then pathBase p else n) l) with
      | none => exact absurd hg hu
      | some p' =>
        obtain ⟨d, hd, hqd⟩ := inv.toPath _ _ hg
        exact List.mem_map.2 ⟨(p', d), GoMap.mem_of_get hd, hqd⟩
    have hnd : ((List.range k).map (candidate (if n = [] then pathBase p else n))).Nodup :=
      List.Nodup.map (fun _ _ h => candidate_injective _ h) List.nodup_range
    have := length_le_of_nodup_of_subset _ _ hnd hsub
    simpa using this
  · rw [inUse_iff inv]; simpa using hfree
  · intro l hl
    rw [inUse_iff inv]
    exact hused l hl

/-- C04: RegisterImport always returns. -/
theorem C04_registerImport_returns (i : Imports) (p n : GoString) :
    ∃ a, (registerImport p n i).1 = .ok a := by
  obtain ⟨a, j, h, _⟩ := registerImport_ok p n i
  exact ⟨a, by rw [h]⟩

/-- The last path element that C04 uses as base name: `path.Base` of a path that ends in the
(non-empty) element `e` is `e`. -/
theorem C04_base_is_last_element (dir e : GoString) (he : e ≠ []) (hs : slash ∉ e) :
    pathBase e = e ∧ pathBase (dir ++ slash :: e) = e := by
  have hne : ∀ x ∈ e.reverse, (x != slash) = true := by
    intro x hx
    simp only [bne_iff_ne]
    rintro rfl
    exact hs (List.mem_reverse.1 hx)
  have hdrop : ∀ l, (e.reverse ++ l).dropWhile (· == slash) = e.reverse ++ l := by
    intro l
    cases hr : e.reverse with
    | nil => simp at hr; exact absurd hr he
    | cons x r =>
      have : (x == slash) = false := by
        have := hne x (by simp [hr])
        simpa using this
      simp [this]
  constructor
  · have := hdrop []
    simp only [List.append_nil] at this
    have h2 : e.reverse.takeWhile (· != slash) = e.reverse := by
      have := List.takeWhile_append_of_pos (l₂ := []) hne
      simpa using this
    rw [pathBase, if_neg he]
    simp only [this, List.reverse_reverse, h2, he, if_false]
  · rw [pathBase, if_neg (by simp)]
    have h1 : (dir ++ slash :: e).reverse = e.reverse ++ (slash :: dir.reverse) := by simp
    have h2 : (e.reverse ++ slash :: dir.reverse).takeWhile (· != slash) = e.reverse := by
      rw [List.takeWhile_append_of_pos hne]
      simp
    simp only [h1, hdrop, List.reverse_reverse, h2, he, if_false]

example : pathBase exA = b! "foo" := by decide
example : InUse exState (b! "foo1") := ⟨exC, by decide⟩
example : b! "x/foo" ∉ exState.importedPaths ∧ b! "x/foo" ≠ exState.pkgPath := by decide

/-! ## C05 -/

/-- The symbol's package can be looked up: it has none, is the own package or was imported. -/
def Known (i : Imports) (s : Symbol) : Prop :=
  (s.package.name = [] ∧ s.package.importPath = []) ∨ s.package.importPath = i.pkgPath ∨
    s.package.importPath ∈ i.importedPaths

theorem known_iff (i : Imports) (s : Symbol) : Known i s ↔ Covered i s := by
  unfold Known Covered Imports.importedPaths Symbol.isBuiltin
  rw [mem_importPaths]

/-- C05: PrefixForPackage never changes the imports and panics exactly for paths that are neither
the own package nor imported. -/
theorem C05_prefixForPackage (i : Imports) (p : GoString) :
    (prefixFor p i).2 = i ∧ (prefixFor p i).1 ≠ .hang ∧
    ((prefixFor p i).1 = .panic ↔ p ≠ i.pkgPath ∧ p ∉ i.importedPaths) := by
  unfold Imports.importedPaths
  rw [mem_importPaths]
  simp only [prefixFor]
  by_cases ho : p = i.pkgPath
  · rw [prefixForPackage_own ho]; simp [ho]
  · cases hg : i.importsByPath.get p with
    | none => rw [prefixForPackage_unknown ho hg]; simp [ho]
    | some d => rw [prefixForPackage_known ho hg]; simp

/-- C05: Qualify never changes the imports, panics exactly on symbols of unknown packages, and
otherwise agrees with EnsureImported. -/
theorem C05_qualify (i : Imports) (s : Symbol) :
    (qualifyOnly s i).2 = i ∧ ((qualifyOnly s i).1 = .panic ↔ ¬ Known i s) ∧
    (Known i s → ∃ s', qualifyOnly s i = (.ok s', i) ∧ ensureImported s i = (.ok s', i)) := by
  rw [known_iff]
  simp only [qualifyOnly, ensureImported]
  refine ⟨(runs_qualify s false i).eq_of_false (by simp), ?_, ?_⟩
  · rcases lookup_qualify s i with ⟨a, ha, hc⟩ | hp
    · simp only [ha]
      simpa using hc
    · simp only [hp, true_iff]
      intro hc
      obtain ⟨j, hj, _⟩ := qualify_ok s false i (.inr hc)
      rw [hp] at hj; simp at hj
  · intro hc
    by_cases hb : s.isBuiltin
    · exact ⟨s, qualify_builtin hb _ _, qualify_builtin hb _ _⟩
    · by_cases ho : s.package.importPath = i.pkgPath
      · exact ⟨_, qualify_of_prefix hb (prefixForPackage_own ho),
          qualify_of_prefix hb (prefixForPackage_own ho)⟩
      · cases hg : i.importsByPath.get s.package.importPath with
        | some d =>
          exact ⟨_, qualify_of_prefix hb (prefixForPackage_known ho hg),
            qualify_of_prefix hb (prefixForPackage_known ho hg)⟩
        | none => rcases hc with h | h | h <;> contradiction

/-- Ensure* of something whose symbols are all covered changes nothing. -/
theorem covered_no_change {i j : Imports} {l : List Symbol} (hc : ∀ s ∈ l, Covered i s)
    (h : Evolves (pkgsOf true l) i j) : j = i := by
  induction h with
  | refl => rfl
  | step he hs ih =>
    obtain ⟨pkg, q, ⟨_, s, hs, hb, rfl⟩, hown, hnone, _⟩ := hs
    rcases he.ext.covered (hc s hs) with h | h | h
    · exact absurd h hb
    · exact absurd h hown
    · exact absurd hnone h

/-- C05: QualifyType never changes the imports; for a valid type it panics exactly if the type
mentions an unknown package and otherwise agrees with EnsureTypeImported (which then changes
nothing either). -/
theorem C05_qualifyType (i : Imports) (t : TypeName) :
    (qualifyTypeOnly t i).2 = i ∧
    (t.valid = true → ((qualifyTypeOnly t i).1 = .panic ↔ ¬ ∀ s ∈ t.symbols, Known i s)) ∧
    (t.valid = true → (∀ s ∈ t.symbols, Known i s) →
      ∃ t', qualifyTypeOnly t i = (.ok t', i) ∧ ensureTypeImported t i = (.ok t', i)) := by
  simp only [known_iff]
  have hok : t.valid = true → (∀ s ∈ t.symbols, Covered i s) →
      qualifyTypeOnly t i = (.ok (t.mapSymbols i.symIn), i) := by
    intro hv hc
    rw [qualifyTypeOnly, IM.bind_ok (qualifyType_false_ok hv hc)]; rfl
  refine ⟨?_, ?_, ?_⟩
  · have h := (runs_qualifyType false t)
    exact (Runs.bind h (fun _ => Runs.pure _) i).eq_of_false (not_pkgsOf_false _)
  · intro hv
    rcases lookup_qualifyType i t with ⟨a, ha, hc⟩ | hp
    · rw [hok hv hc]; simp only [reduceCtorEq, false_iff, not_not]; exact hc
    · have : (qualifyTypeOnly t i).1 = .panic := by
        rw [qualifyTypeOnly, IM.bind_panic hp]
      simp only [this, true_iff]
      intro hc
      rw [hok hv hc] at this
      simp at this
  · intro hv hc
    refine ⟨_, hok hv hc, ?_⟩
    obtain ⟨j, hj, _⟩ := qualifyType_ok true t i hv (.inl rfl)
    have hev := runs_qualifyType true t i
    rw [hj] at hev
    have := covered_no_change hc hev
    subst this
    rw [ensureTypeImported, IM.bind_ok hj]; rfl

/-- C05 for signatures. -/
theorem C05_qualifySignature (i : Imports) (t : Signature) :
    (qualifySignatureOnly t i).2 = i ∧
    (t.valid = true → ((qualifySignatureOnly t i).1 = .panic ↔ ¬ ∀ s ∈ t.symbols, Known i s)) ∧
    (t.valid = true → (∀ s ∈ t.symbols, Known i s) →
      ∃ t', qualifySignatureOnly t i = (.ok t', i) ∧ ensureAllTypesImported t i = (.ok t', i)) := by
  simp only [known_iff]
  have hok : t.valid = true → (∀ s ∈ t.symbols, Covered i s) →
      qualifySignatureOnly t i = (.ok (t.mapSymbols i.symIn), i) := by
    intro hv hc
    rw [qualifySignatureOnly, IM.bind_ok (qualifySignature_false_ok hv hc)]; rfl
  refine ⟨?_, ?_, ?_⟩
  · have h := (runs_qualifySignature false t)
    exact (Runs.bind h (fun _ => Runs.pure _) i).eq_of_false (not_pkgsOf_false _)
  · intro hv
    rcases lookup_qualifySignature i t with ⟨a, ha, hc⟩ | hp
    · rw [hok hv hc]; simp only [reduceCtorEq, false_iff, not_not]; exact hc
    · have : (qualifySignatureOnly t i).1 = .panic := by
        rw [qualifySignatureOnly, IM.bind_panic hp]
      simp only [this, true_iff]
      intro hc
      rw [hok hv hc] at this
      simp at this
  · intro hv hc
    refine ⟨_, hok hv hc, ?_⟩
    obtain ⟨j, hj, _⟩ := qualifySignature_ok true t i hv (.inl rfl)
    have hev := runs_qualifySignature true t i
    rw [hj] at hev
    have := covered_no_change hc hev
    subst this
    rw [ensureAllTypesImported, IM.bind_ok hj]; rfl

example : exType.valid = true := by decide
example : (qualifyTypeOnly exType (newImportsFor exOwn)).1 = .panic := rfl
example : exType.symbols = [exSymA, exSymB, ⟨⟨[], []⟩, b! "error"⟩] := by decide
example : ∀ s ∈ exType.symbols, Known exState s := by unfold Known; decide

/-! ## C06 -/

/-- C06: whatever the iteration order of the map and whatever the (correct) sorting algorithm,
ImportSpecs returns the same list. -/
theorem C06_order_irrelevant {i : Imports} (hi : Reachable i)
    (order : List (GoString × ImportDef)) (horder : List.Perm order i.importsByPath)
    (out : List ImportSpec) (hperm : out.Perm (order.map specOf))
    (hsorted : out.Pairwise (fun a b => ¬ b.importPath < a.importPath)) : out = i.importSpecs := by
  have hp : out.Perm i.importSpecs :=
    hperm.trans ((horder.map specOf).trans (importSpecs_perm i).symm)
  refine sorted_unique hp hsorted (sortSpecs_sorted _) ?_
  rw [(hp.map (·.importPath)).nodup_iff]
  exact importSpecs_nodup hi.inv

/-- C06: ImportSpecs is strictly sorted by path (so without duplicates) and contains exactly the
paths for which a non-empty prefix is known. -/
theorem C06_sorted_set {i : Imports} (hi : Reachable i) :
    i.importedPaths.Pairwise (· < ·) ∧
    ∀ p, p ∈ i.importedPaths ↔ ∃ a, a ≠ [] ∧ (prefixFor p i).1 = .ok a := by
  have inv := hi.inv
  constructor
  · have hs : SortedByPath i.importSpecs := sortSpecs_sorted _
    have hn := importSpecs_nodup inv
    rw [List.nodup_iff_pairwise_ne, List.pairwise_map] at hn
    rw [Imports.importedPaths, List.pairwise_map]
    refine List.Pairwise.imp ?_ (List.Pairwise.and hs hn)
    rintro a b ⟨h1, h2⟩
    rcases goString_trichotomy a.importPath b.importPath with h | h | h
    · exact h
    · exact absurd h h2
    · exact absurd h h1
  · intro p
    rw [Imports.importedPaths, mem_importPaths]
    simp only [prefixFor]
    by_cases ho : p = i.pkgPath
    · rw [prefixForPackage_own ho, ho, inv.ownAbsent]; simp
    · cases hg : i.importsByPath.get p with
      | none => rw [prefixForPackage_unknown ho hg]; simp
      | some d =>
        rw [prefixForPackage_known ho hg]
        simp only [ne_eq, reduceCtorEq, not_false_eq_true, true_iff]
        exact ⟨_, by simp, rfl⟩

/-- Go's comparison of strings (used by ImportSpecs' less function) is the lexicographic order that
the theorems of C06 use. -/
theorem C06_less_is_lexicographic (s t : GoString) : goStringLt s t = true ↔ s < t :=
  goStringLt_iff s t

example : exState.importedPaths = [exA, exB, exC] := by decide
example : importSpecsInOrder exState.importsByPath.reverse = exState.importSpecs := by decide

/-! ## C07 -/

/-- C07: with truthful package names, every qualifier that the Imports hands out is bound by the
printed import statements to the path it was handed out for, and to no other. -/
theorem C07_imports_bind_prefixes {realName : GoString → GoString} {own : GoString}
    {history : List Call} (htruth : ∀ c ∈ history, Truthful realName c.packages)
    {p q : GoString}
    (h : (prefixFor p ((newImportsFor own).after history)).1 = .ok (q ++ b! ".")) :
    resolveQualifier realName ((newImportsFor own).after history).importSpecs q = [p] := by
  have hev := evolves_after history (newImportsFor own)
  have inv := inv_after (own := own) history
  generalize (newImportsFor own).after history = i at *
  have htn : TrueNames realName i := by
    intro p d hd ha
    obtain ⟨pkg, n, ⟨c, hc, hpc⟩, hpath, hname, halias⟩ := hev.entries _ _ hd
    rw [ha] at halias
    have hpn : d.packageName = pkg.name := by simpa using halias.symm
    rcases htruth c hc pkg hpc with h | h
    · exact absurd (hpn.trans h) (inv.nonempty _ _ hd)
    · rw [hpn, h, hpath]
  obtain ⟨d, hd, hq⟩ : ∃ d, i.importsByPath.get p = some d ∧ d.packageName = q := by
    simp only [prefixFor] at h
    by_cases ho : p = i.pkgPath
    · rw [prefixForPackage_own ho] at h; simp at h
    · cases hg : i.importsByPath.get p with
      | none => rw [prefixForPackage_unknown ho hg] at h; simp at h
      | some d =>
        rw [prefixForPackage_known ho hg] at h
        simp only [Outcome.ok.injEq] at h
        exact ⟨d, rfl, List.append_cancel_right h⟩
  rw [← hq]
  exact resolve_of_trueNames inv htn hd

/-- C07: the import statement of a newly registered package shows an alias exactly if the name
differs from the one given. -/
theorem C07_alias_iff_different {i : Imports} (hi : Reachable i) {p n q : GoString}
    (hown : p ≠ i.pkgPath) (hnew : p ∉ i.importedPaths)
    (h : (registerImport p n i).1 = .ok (q ++ b! ".")) (history : List Call) :
    (⟨if q = n then [] else q, p⟩ : ImportSpec)
      ∈ ((registerImport p n i).2.after history).importSpecs := by
  have inv := hi.inv
  rw [Imports.importedPaths, mem_importPaths, ne_eq, not_not] at hnew
  obtain ⟨q', hf, hq⟩ := prefixForPackage_new (n := n) hown hnew
  rw [registerImport, hq] at h
  simp only [Outcome.ok.injEq] at h
  obtain rfl := List.append_cancel_right h
  rw [registerImport, hq]
  have hj : Reachable (i.add p q' (decide (q' ≠ n))) := by
    have := hi.exec (.registerImport p n)
    simpa only [Call.exec, registerImport, hq] using this
  have hext := (evolves_after history (i.add p q' (decide (q' ≠ n)))).ext
  have := hext.keeps p ⟨q', decide (q' ≠ n)⟩ (by simp [Imports.add])
  rw [mem_importSpecs (hj.after history).inv]
  refine ⟨_, this, ?_⟩
  by_cases hqn : q' = n <;> simp [hqn]

example : ∀ c ∈ exHistory, Truthful
    (fun p => if p = exC then b! "foo1" else b! "foo") c.packages := by
  simp only [exHistory, List.mem_cons, List.not_mem_nil, or_false]
  rintro c (rfl | rfl | rfl | rfl) <;> unfold Truthful <;> decide

/- Without truthful names it fails: a package registered under a name that is not its own. -/
example : resolveQualifier (fun _ => b! "real") ((newImportsFor exOwn).after
    [.registerImport exA (b! "foo")]).importSpecs (b! "foo") = [] := by decide

/-! ## C08 -/

/-- C08: EnsureImported keeps name and path; the package name becomes the registered prefix without
its dot; symbols without a package are returned unchanged and register nothing. -/
theorem C08_ensureImported (i : Imports) (s : Symbol) :
    (s.package = ⟨[], []⟩ → ensureImported s i = (.ok s, i)) ∧
    (s.package ≠ ⟨[], []⟩ → ∃ q j,
      ensureImported s i = (.ok ⟨⟨s.package.importPath, q⟩, s.name⟩, j) ∧
      registerImport s.package.importPath s.package.name i
        = (.ok (if s.package.importPath = i.pkgPath then [] else q ++ b! "."), j) ∧
      (s.package.importPath = i.pkgPath → q = [])) := by
  constructor
  · intro h
    exact qualify_builtin ⟨by rw [h], by rw [h]⟩ _ _
  · intro h
    have hb : ¬ s.isBuiltin := by
      rintro ⟨h1, h2⟩
      apply h
      cases hs : s.package
      simp_all
    rw [ensureImported, registerImport]
    by_cases ho : s.package.importPath = i.pkgPath
    · exact ⟨[], i, qualify_of_prefix hb (prefixForPackage_own ho),
        by rw [prefixForPackage_own ho, if_pos ho], fun _ => rfl⟩
    · cases hg : i.importsByPath.get s.package.importPath with
      | some d =>
        refine ⟨d.packageName, i, ?_, by rw [prefixForPackage_known ho hg, if_neg ho],
          fun h => absurd h ho⟩
        rw [qualify_of_prefix hb (prefixForPackage_known ho hg), trimDot_dot]
      | none =>
        obtain ⟨q, _, hq⟩ := prefixForPackage_new (n := s.package.name) ho hg
        refine ⟨q, _, ?_, by rw [hq, if_neg ho], fun h => absurd h ho⟩
        rw [qualify_of_prefix hb hq, trimDot_dot]

example : ensureImported exSymB exState = (.ok ⟨⟨exB, b! "foo2"⟩, b! "Baz"⟩, exState) := by decide
example : exSymB.package ≠ ⟨[], []⟩ := by decide
example : ensureImported ⟨⟨[], []⟩, b! "error"⟩ exState = (.ok ⟨⟨[], []⟩, b! "error"⟩, exState) := by
  decide

/-! ## C09 -/

theorem symIn_idem {i : Imports} (hi : Inv i) {s : Symbol} (h : Covered i s) :
    Covered i (i.symIn s) ∧ i.symIn (i.symIn s) = i.symIn s := by
  by_cases hb : s.isBuiltin
  · have h' : s.package.name = [] ∧ s.package.importPath = [] := hb
    have e : i.symIn s = s := by rw [Imports.symIn, Symbol.withPrefix, if_pos h']
    rw [e]; exact ⟨h, e⟩
  · have h' : ¬ (s.package.name = [] ∧ s.package.importPath = []) := hb
    by_cases ho : s.package.importPath = i.pkgPath
    · have e : i.symIn s = { s with package := ⟨s.package.importPath, []⟩ } := by
        rw [Imports.symIn, Symbol.withPrefix, if_neg h', if_pos ho]
      rw [e]
      refine ⟨.inr (.inl ho), ?_⟩
      unfold Imports.symIn Symbol.withPrefix
      split
      · rfl
      · simp [ho]
    · have hg : i.importsByPath.get s.package.importPath ≠ none := by
        rcases h with h | h | h
        · exact absurd h hb
        · exact absurd h ho
        · exact h
      have e : i.symIn s = { s with package := ⟨s.package.importPath, i.nameIn s.package.importPath⟩ } := by
        rw [Imports.symIn, Symbol.withPrefix, if_neg h', if_neg ho]
      rw [e]
      refine ⟨.inr (.inr hg), ?_⟩
      have hne : i.nameIn s.package.importPath ≠ [] := by
        cases hd : i.importsByPath.get s.package.importPath with
        | none => exact absurd hd hg
        | some d => simp only [Imports.nameIn, hd]; exact hi.nonempty _ _ hd
      rw [Imports.symIn, Symbol.withPrefix, if_neg (by simp [hne]), if_neg (by exact ho)]

/-- C09: EnsureImported of its own result, also after further calls, returns it unchanged and
changes no import. -/
theorem C09_ensureImported_idempotent {i j : Imports} (hi : Reachable i) {s s' : Symbol}
    (h : ensureImported s i = (.ok s', j)) (history : List Call) :
    ensureImported s' (j.after history) = (.ok s', j.after history) := by
  obtain ⟨j', e, hc⟩ := qualify_ok s true i (.inl rfl)
  rw [ensureImported] at h
  rw [h] at e
  obtain ⟨rfl, rfl⟩ : s' = j'.symIn s ∧ j = j' := by simpa using e
  have hinv : Inv j := by
    have := (runs_qualify s true i).inv hi.inv
    rw [h] at this; exact this
  obtain ⟨hc', hid⟩ := symIn_idem hinv hc
  have hext := (evolves_after history j).ext
  obtain ⟨k, hk, _⟩ := qualify_ok (j.symIn s) true (j.after history) (.inl rfl)
  have hev := runs_qualify (j.symIn s) true (j.after history)
  rw [hk] at hev
  have hkj := covered_no_change (l := [j.symIn s]) (by simpa using hext.covered hc')
    (hev.mono (by rintro p ⟨h1, h2, rfl⟩; exact ⟨h1, _, by simp, h2, rfl⟩))
  dsimp only at hkj
  subst hkj
  rw [ensureImported, hk, hext.symIn hc', hid]

theorem ensureTypeImported_eq {i : Imports} {t : TypeName} (hv : t.valid = true) :
    ∃ j, ensureTypeImported t i = (.ok (t.mapSymbols j.symIn), j) ∧
      (∀ s ∈ t.symbols, Covered j s) ∧ Evolves (pkgsOf true t.symbols) i j := by
  obtain ⟨j, hj, hc⟩ := qualifyType_ok true t i hv (.inl rfl)
  refine ⟨j, by rw [ensureTypeImported, IM.bind_ok hj]; rfl, hc, ?_⟩
  have := runs_qualifyType true t i
  rw [hj] at this; exact this

theorem ensureAllTypesImported_eq {i : Imports} {t : Signature} (hv : t.valid = true) :
    ∃ j, ensureAllTypesImported t i = (.ok (t.mapSymbols j.symIn), j) ∧
      (∀ s ∈ t.symbols, Covered j s) ∧ Evolves (pkgsOf true t.symbols) i j := by
  obtain ⟨j, hj, hc⟩ := qualifySignature_ok true t i hv (.inl rfl)
  refine ⟨j, by rw [ensureAllTypesImported, IM.bind_ok hj]; rfl, hc, ?_⟩
  have := runs_qualifySignature true t i
  rw [hj] at this; exact this

/-- C09: EnsureTypeImported of its own result, also after further calls, returns it unchanged and
changes no import. -/
theorem C09_ensureTypeImported_idempotent {i j : Imports} (hi : Reachable i) {t t' : TypeName}
    (hv : t.valid = true) (h : ensureTypeImported t i = (.ok t', j)) (history : List Call) :
    ensureTypeImported t' (j.after history) = (.ok t', j.after history) := by
  obtain ⟨j', e, hc, hev⟩ := ensureTypeImported_eq (i := i) hv
  rw [h] at e
  obtain ⟨rfl, rfl⟩ : t' = t.mapSymbols j'.symIn ∧ j = j' := by simpa using e
  have hinv : Inv j := hev.inv hi.inv
  have hext := (evolves_after history j).ext
  have hcov : ∀ s ∈ (t.mapSymbols j.symIn).symbols, Covered (j.after history) s := by
    rw [symbols_mapSymbols]
    intro s hs
    obtain ⟨x, hx, rfl⟩ := List.mem_map.1 hs
    exact hext.covered (symIn_idem hinv (hc x hx)).1
  obtain ⟨k, hk, _, hevk⟩ := ensureTypeImported_eq (i := j.after history) (t := t.mapSymbols j.symIn)
    ((valid_mapSymbols _ _).trans hv)
  have hkj := covered_no_change hcov hevk
  subst hkj
  rw [hk]
  congr 1
  congr 1
  refine mapSymbols_eq_self _ ?_
  rw [symbols_mapSymbols]
  intro s hs
  obtain ⟨x, hx, rfl⟩ := List.mem_map.1 hs
  obtain ⟨h1, h2⟩ := symIn_idem hinv (hc x hx)
  rw [hext.symIn h1, h2]

/-- C09 for signatures. -/
theorem C09_ensureAllTypesImported_idempotent {i j : Imports} (hi : Reachable i) {t t' : Signature}
    (hv : t.valid = true) (h : ensureAllTypesImported t i = (.ok t', j)) (history : List Call) :
    ensureAllTypesImported t' (j.after history) = (.ok t', j.after history) := by
  obtain ⟨j', e, hc, hev⟩ := ensureAllTypesImported_eq (i := i) hv
  rw [h] at e
  obtain ⟨rfl, rfl⟩ : t' = t.mapSymbols j'.symIn ∧ j = j' := by simpa using e
  have hinv : Inv j := hev.inv hi.inv
  have hext := (evolves_after history j).ext
  have hcov : ∀ s ∈ (t.mapSymbols j.symIn).symbols, Covered (j.after history) s := by
    rw [symbols_mapSymbols_sig]
    intro s hs
    obtain ⟨x, hx, rfl⟩ := List.mem_map.1 hs
    exact hext.covered (symIn_idem hinv (hc x hx)).1
  obtain ⟨k, hk, _, hevk⟩ := ensureAllTypesImported_eq (i := j.after history)
    (t := t.mapSymbols j.symIn) ((valid_mapSymbols_sig _ _).trans hv)
  have hkj := covered_no_change hcov hevk
  subst hkj
  rw [hk]
  congr 1
  congr 1
  refine mapSymbols_eq_self_sig _ ?_
  rw [symbols_mapSymbols_sig]
  intro s hs
  obtain ⟨x, hx, rfl⟩ := List.mem_map.1 hs
  obtain ⟨h1, h2⟩ := symIn_idem hinv (hc x hx)
  rw [hext.symIn h1, h2]

/- The hypothesis is met by a type that really changes. -/
example : ensureTypeImported exType exState =
    (.ok (.map (.func ⟨[⟨b! "x", .slice (.named ⟨⟨exB, b! "foo2"⟩, b! "Baz"⟩)⟩],
      [⟨[], errorType⟩], true⟩) (.named exSymA)), exState) := rfl

/-! ## C10 -/

/-- C10: EnsureTypeImported replaces every symbol by its EnsureImported form in the resulting
Imports, and changes nothing else. -/
theorem C10_only_symbols_change {i : Imports} {t : TypeName} (hv : t.valid = true) :
    ∃ f j, ensureTypeImported t i = (.ok (t.mapSymbols f), j) ∧
      ∀ s ∈ t.symbols, ensureImported s j = (.ok (f s), j) := by
  obtain ⟨j, hj, hc, _⟩ := ensureTypeImported_eq (i := i) hv
  refine ⟨j.symIn, j, hj, fun s hs => ?_⟩
  obtain ⟨k, hk, _⟩ := qualify_ok s true j (.inl rfl)
  have hev := runs_qualify s true j
  rw [hk] at hev
  have hkj := covered_no_change (l := [s]) (by simpa using hc s hs)
    (hev.mono (by rintro p ⟨h1, h2, rfl⟩; exact ⟨h1, _, by simp, h2, rfl⟩))
  dsimp only at hkj
  subst hkj
  exact hk

/-- C10 for signatures. -/
theorem C10_only_symbols_change_signature {i : Imports} {t : Signature} (hv : t.valid = true) :
    ∃ f j, ensureAllTypesImported t i = (.ok (t.mapSymbols f), j) ∧
      ∀ s ∈ t.symbols, ensureImported s j = (.ok (f s), j) := by
  obtain ⟨j, hj, hc, _⟩ := ensureAllTypesImported_eq (i := i) hv
  refine ⟨j.symIn, j, hj, fun s hs => ?_⟩
  obtain ⟨k, hk, _⟩ := qualify_ok s true j (.inl rfl)
  have hev := runs_qualify s true j
  rw [hk] at hev
  have hkj := covered_no_change (l := [s]) (by simpa using hc s hs)
    (hev.mono (by rintro p ⟨h1, h2, rfl⟩; exact ⟨h1, _, by simp, h2, rfl⟩))
  dsimp only at hkj
  subst hkj
  exact hk

example : (Signature.mk [⟨b! "x", .slice (.named exSymB)⟩] [] true).valid = true := by decide

/-! ## C11 -/

theorem importedPaths_of_evolves {i j : Imports} {l : List Symbol}
    (hc : ∀ s ∈ l, Covered j s) (hev : Evolves (pkgsOf true l) i j) (p : GoString) :
    p ∈ j.importedPaths ↔ p ∈ i.importedPaths ∨
      (p ≠ i.pkgPath ∧ ∃ s ∈ l, s.package ≠ ⟨[], []⟩ ∧ s.package.importPath = p) := by
  have hbi : ∀ s : Symbol, s.isBuiltin ↔ s.package = ⟨[], []⟩ := by
    intro s; unfold Symbol.isBuiltin; cases s.package; simp [and_comm]
  unfold Imports.importedPaths
  rw [mem_importPaths, mem_importPaths]
  constructor
  · intro h
    rcases hev.paths p h with h | ⟨h1, pkg, ⟨_, s, hs, hb, rfl⟩, h3⟩
    · exact .inl h
    · exact .inr ⟨h1, s, hs, by rwa [ne_eq, ← hbi], h3⟩
  · rintro (h | ⟨h1, s, hs, hb, rfl⟩)
    · cases hg : i.importsByPath.get p with
      | none => exact absurd hg h
      | some d => rw [hev.ext.keeps p d hg]; simp
    · rcases hc s hs with h | h | h
      · exact absurd ((hbi s).1 h) hb
      · exact absurd (h.trans hev.ext.own) h1
      · exact h

/-- C11: EnsureTypeImported imports exactly the packages that the type mentions. -/
theorem C11_imports_exactly_mentioned {i j : Imports} {t t' : TypeName} (hv : t.valid = true)
    (h : ensureTypeImported t i = (.ok t', j)) (p : GoString) :
    p ∈ j.importedPaths ↔ p ∈ i.importedPaths ∨
      (p ≠ i.pkgPath ∧ ∃ s ∈ t.symbols, s.package ≠ ⟨[], []⟩ ∧ s.package.importPath = p) := by
  obtain ⟨j', e, hc, hev⟩ := ensureTypeImported_eq (i := i) hv
  rw [h] at e
  obtain ⟨rfl, rfl⟩ : t' = t.mapSymbols j'.symIn ∧ j = j' := by simpa using e
  exact importedPaths_of_evolves hc hev p

/-- C11 for signatures. -/
theorem C11_imports_exactly_mentioned_signature {i j : Imports} {t t' : Signature}
    (hv : t.valid = true) (h : ensureAllTypesImported t i = (.ok t', j)) (p : GoString) :
    p ∈ j.importedPaths ↔ p ∈ i.importedPaths ∨
      (p ≠ i.pkgPath ∧ ∃ s ∈ t.symbols, s.package ≠ ⟨[], []⟩ ∧ s.package.importPath = p) := by
  obtain ⟨j', e, hc, hev⟩ := ensureAllTypesImported_eq (i := i) hv
  rw [h] at e
  obtain ⟨rfl, rfl⟩ : t' = t.mapSymbols j'.symIn ∧ j = j' := by simpa using e
  exact importedPaths_of_evolves hc hev p

example : ((ensureTypeImported exType (newImportsFor exOwn)).2).importedPaths = [exA, exB] := by
  decide

/-! ## C12 (rendering: see `Verif.Props.Render`) -/

/-- Types built with the exported constructors. The constructors for structs and interfaces check
nothing, so for these the components are required to be built with the constructors too (for a
method: a signature that FuncTypeFromSig accepts). -/
inductive Constructible : TypeName → Prop where
  | basic {k t} : basicType k = .ok t → Constructible t
  | named (s) : Constructible (namedType s)
  | ptr {e t} : Constructible e → pointerType e = .ok t → Constructible t
  | slice {e t} : Constructible e → sliceType e = .ok t → Constructible t
  | array {e n t} : Constructible e → arrayType e n = .ok t → Constructible t
  | map {k v t} : Constructible k → Constructible v → mapType k v = .ok t → Constructible t
  | chan {e d t} : Constructible e → channelType e d = .ok t → Constructible t
  | func {sig t} : (∀ a ∈ sig.args, Constructible a.type) → (∀ a ∈ sig.results, Constructible a.type) →
      funcTypeFromSig sig = .ok t → Constructible t
  | struct (fs : List FieldType) : (∀ f ∈ fs, Constructible f.type) → Constructible (structType fs)
  | interface (ms : List MethodType) (es) :
      (∀ m ∈ ms, ∀ a ∈ m.signature.args, Constructible a.type) →
      (∀ m ∈ ms, ∀ a ∈ m.signature.results, Constructible a.type) →
      (∀ m ∈ ms, ∃ t, funcTypeFromSig m.signature = .ok t) → Constructible (interfaceType es ms)

theorem chanDir_valid {d : ChanDir} (h : d &&& ~~~bothDir = 0) (h0 : d ≠ 0) :
    d = recvDir ∨ d = sendDir ∨ d = bothDir := by
  have hlt : d.toNat < 4 := by
    have h2 := congrArg BitVec.toNat h
    have h3 : d.toNat = (d &&& bothDir).toNat := by
      have : d = (d &&& bothDir) ||| (d &&& ~~~bothDir) := by
        apply BitVec.eq_of_getLsbD_eq
        intro i hi
        simp only [BitVec.getLsbD_or, BitVec.getLsbD_and, BitVec.getLsbD_not, hi, decide_true,
          Bool.true_and]
        cases d.getLsbD i <;> cases bothDir.getLsbD i <;> rfl
      rw [h] at this
      have hz : (d &&& bothDir) ||| (0 : ChanDir) = d &&& bothDir := BitVec.or_zero
      rw [hz] at this
      rw [← this]
    rw [h3, BitVec.toNat_and]
    have : bothDir.toNat = 3 := rfl
    rw [this]
    have := Nat.and_le_right (n := d.toNat) (m := 3)
    omega
  have hne : d.toNat ≠ 0 := fun hz => h0 (BitVec.eq_of_toNat_eq hz)
  have : d.toNat = 1 ∨ d.toNat = 2 ∨ d.toNat = 3 := by omega
  rcases this with h | h | h
  · exact .inl (BitVec.eq_of_toNat_eq h)
  · exact .inr (.inl (BitVec.eq_of_toNat_eq h))
  · exact .inr (.inr (BitVec.eq_of_toNat_eq h))

/-- What FuncTypeFromSig accepts, given valid components. -/
theorem valid_of_funcTypeFromSig {s : Signature} {t : TypeName} (h : funcTypeFromSig s = .ok t)
    (ha : ∀ a ∈ s.args, a.type.valid = true) (hr : ∀ a ∈ s.results, a.type.valid = true) :
    t = .func s ∧ s.valid = true := by
  obtain ⟨args, results, v⟩ := s
  have hva := (validArgs_iff args).2 ha
  have hvr := (validArgs_iff results).2 hr
  simp only [funcTypeFromSig, any_isNil_of_validArgs hva, any_isNil_of_validArgs hvr,
    Bool.false_eq_true, if_false] at h
  cases v with
  | false =>
    simp only [Bool.false_eq_true, if_false, Outcome.ok.injEq] at h
    exact ⟨h.symm, by simp [Signature.valid, hva, hvr]⟩
  | true =>
    simp only [if_true] at h
    cases hl : args.getLast? with
    | none => rw [hl] at h; simp at h
    | some x =>
      rw [hl] at h
      obtain ⟨n, ty⟩ := x
      cases ty <;> simp only [TypeName.kind, reduceCtorEq, Outcome.ok.injEq] at h
      exact ⟨h.symm, by simp [Signature.valid, hva, hvr, lastIsSlice, hl]⟩

/-- Types built with the exported constructors are valid. -/
theorem valid_of_constructible {t : TypeName} (h : Constructible t) : t.valid = true := by
  induction h with
  | @basic k t h =>
    unfold basicType at h
    split at h
    · simp only [Outcome.ok.injEq] at h; subst h; rfl
    · split at h
      · rename_i hb; simp only [Outcome.ok.injEq] at h; subst h; exact hb
      · simp at h
  | named s => rfl
  | ptr _ h ih =>
    unfold pointerType at h
    split at h
    · simp at h
    · simp only [Outcome.ok.injEq] at h; subst h; exact ih
  | slice _ h ih =>
    unfold sliceType at h
    split at h
    · simp at h
    · simp only [Outcome.ok.injEq] at h; subst h; exact ih
  | array _ h ih =>
    unfold arrayType at h
    split at h
    · simp at h
    · rename_i hc
      simp only [Outcome.ok.injEq] at h; subst h
      simp only [Bool.or_eq_true, decide_eq_true_eq, not_or, Int.not_lt] at hc
      simp [TypeName.valid, ih, hc.2]
  | map _ _ h ihk ihv =>
    unfold mapType at h
    split at h
    · simp at h
    · simp only [Outcome.ok.injEq] at h; subst h
      simp [TypeName.valid, ihk, ihv]
  | @chan e d t _ h ih =>
    unfold channelType at h
    dsimp only at h
    by_cases hd : d = 0
    · subst hd
      simp only [if_true] at h
      split at h
      · simp at h
      · simp only [Outcome.ok.injEq] at h; subst h
        simp [TypeName.valid, ih]
    · simp only [hd, if_false] at h
      split at h
      · simp at h
      · rename_i hc
        simp only [Outcome.ok.injEq] at h; subst h
        simp only [Bool.or_eq_true, decide_eq_true_eq, not_or, ne_eq, not_not] at hc
        have := chanDir_valid hc.2 hd
        simp only [TypeName.valid, ih, Bool.true_and, Bool.or_eq_true, beq_iff_eq]
        tauto
  | func _ _ h iha ihr =>
    obtain ⟨rfl, hv⟩ := valid_of_funcTypeFromSig h iha ihr
    exact hv
  | struct fs _ ih => exact (validFields_iff fs).2 ih
  | interface ms es _ _ h iha ihr =>
    refine (validMethods_iff ms).2 fun m hm => ?_
    obtain ⟨t, ht⟩ := h m hm
    exact (valid_of_funcTypeFromSig ht (iha m hm) (ihr m hm)).2

/-- Conversely every valid type can be built with the exported constructors: the hypothesis of the
theorems about valid types does not exclude anything that can be built. -/
theorem constructible_of_valid : ∀ {t : TypeName}, t.valid = true → Constructible t := by
  intro t
  refine TypeName.rec
    (motive_1 := fun t => t.valid = true → Constructible t)
    (motive_2 := fun s => s.valid = true →
      (∀ a ∈ s.args, Constructible a.type) ∧ (∀ a ∈ s.results, Constructible a.type))
    (motive_3 := fun a => a.type.valid = true → Constructible a.type)
    (motive_4 := fun f => f.type.valid = true → Constructible f.type)
    (motive_5 := fun m => m.signature.valid = true →
      (∀ a ∈ m.signature.args, Constructible a.type) ∧
      (∀ a ∈ m.signature.results, Constructible a.type))
    (motive_6 := fun l => validFields l = true → ∀ f ∈ l, Constructible f.type)
    (motive_7 := fun l => validMethods l = true → ∀ m ∈ l,
      (∀ a ∈ m.signature.args, Constructible a.type) ∧
      (∀ a ∈ m.signature.results, Constructible a.type))
    (motive_8 := fun l => validArgs l = true → ∀ a ∈ l, Constructible a.type)
    ?_ ?_ ?_ ?_ ?_ ?_ ?_ ?_ ?_ ?_ ?_ ?_ ?_ ?_ ?_ ?_ ?_ ?_ ?_ ?_ ?_ t
  · intro h; simp [TypeName.valid] at h
  · intro k h
    refine .basic (k := k) ?_
    simp only [TypeName.valid] at h
    cases k <;> first | rfl | simp [ReflectKind.isBasic] at h
  · intro s _; exact .named s
  · intro e ih h; exact .ptr (ih h) (by simp [pointerType, not_isNil_of_valid (t := e) h])
  · intro e ih h; exact .slice (ih h) (by simp [sliceType, not_isNil_of_valid (t := e) h])
  · intro e n ih h
    simp only [TypeName.valid, Bool.and_eq_true, decide_eq_true_eq] at h
    refine .array (n := n) (ih h.1) ?_
    have : ¬ n < 0 := by omega
    simp [arrayType, not_isNil_of_valid h.1, this]
  · intro e k ihe ihk h
    simp only [TypeName.valid, Bool.and_eq_true] at h
    exact .map (ihk h.2) (ihe h.1)
      (by simp [mapType, not_isNil_of_valid h.1, not_isNil_of_valid h.2])
  · intro e d ih h
    have h' := h
    simp only [TypeName.valid, Bool.and_eq_true] at h'
    exact .chan (ih h'.1) (channelType_valid h)
  · intro s ih h
    obtain ⟨h1, h2⟩ := ih h
    exact .func h1 h2 (funcTypeFromSig_valid h)
  · intro fs ih h; exact .struct fs (ih h)
  · intro ms es ih h
    refine .interface ms es (fun m hm => (ih h m hm).1) (fun m hm => (ih h m hm).2) ?_
    intro m hm
    exact ⟨_, funcTypeFromSig_valid ((validMethods_iff ms).1 h m hm)⟩
  · intro args results v iha ihr h
    simp only [Signature.valid, Bool.and_eq_true] at h
    exact ⟨iha h.1.1, ihr h.1.2⟩
  · intro n t ih h; exact ih h
  · intro n t tag ih h; exact ih h
  · intro n s ih h; exact ih h
  · intro _ f hf; simp at hf
  · intro f l ihf ihl h x hx
    obtain ⟨n, t, tag⟩ := f
    simp only [validFields, Bool.and_eq_true] at h
    rcases List.mem_cons.1 hx with rfl | hx
    · exact ihf h.1
    · exact ihl h.2 x hx
  · intro _ f hf; simp at hf
  · intro f l ihf ihl h x hx
    obtain ⟨n, t⟩ := f
    simp only [validMethods, Bool.and_eq_true] at h
    rcases List.mem_cons.1 hx with rfl | hx
    · exact ihf h.1
    · exact ihl h.2 x hx
  · intro _ f hf; simp at hf
  · intro f l ihf ihl h x hx
    obtain ⟨n, t⟩ := f
    simp only [validArgs, Bool.and_eq_true] at h
    rcases List.mem_cons.1 hx with rfl | hx
    · exact ihf h.1
    · exact ihl h.2 x hx

/-- C12: qualifying a constructible type does not panic, whatever the state of the Imports, and
the result is constructible again. -/
theorem C12_qualify_constructible (i : Imports) {t : TypeName} (h : Constructible t) :
    ∃ t' j, ensureTypeImported t i = (.ok t', j) ∧ Constructible t' := by
  have hv := valid_of_constructible h
  obtain ⟨j, hj, _⟩ := ensureTypeImported_eq (i := i) hv
  exact ⟨_, j, hj, constructible_of_valid ((valid_mapSymbols _ _).trans hv)⟩

example : Constructible exType := constructible_of_valid (by decide)

/- StructType and InterfaceType accept nil types; qualifying the result then panics. -/
example : (ensureTypeImported (structType [⟨b! "F", .nil, []⟩]) (newImportsFor exOwn)).1 = .panic :=
  rfl

/-! ## C14 -/

/-- The packages have pairwise different names: one name per path, and one path per name (where
the name of a package registered without a name is the last element of its path). -/
def ConflictFree (pkgs : List Package) : Prop :=
  ∀ p ∈ pkgs, ∀ q ∈ pkgs, (p.importPath = q.importPath → p = q) ∧
    (baseName p = baseName q → p.importPath = q.importPath)

/-- Register packages in order. -/
def registerAll (pkgs : List Package) : List Call := pkgs.map Call.registerImportForPackage

theorem registerAll_table (own : GoString) : ∀ (pkgs : List Package), ConflictFree pkgs →
    ∀ p, ((newImportsFor own).after (registerAll pkgs)).importsByPath.get p =
      match pkgs.find? (fun k => decide (k.importPath = p)) with
      | none => none
      | some k => if p = own then none else some ⟨baseName k, decide (baseName k ≠ k.name)⟩ := by
  intro pkgs
  induction pkgs using List.reverseRec with
  | nil => intro _ p; rfl
  | append_singleton l k ih =>
    intro hcf p
    have hcf' : ConflictFree l := fun a ha b hb => hcf a (by simp [ha]) b (by simp [hb])
    have hstate : (newImportsFor own).after (registerAll (l ++ [k]))
        = (registerImportForPackage k ((newImportsFor own).after (registerAll l))).2 := by
      simp [registerAll, Imports.after, Call.exec]
    rw [hstate]
    have ih := ih hcf'
    have hreach : ReachableFor own ((newImportsFor own).after (registerAll l)) := ⟨_, rfl⟩
    have hown := hreach.pkgPath
    have hinv : Inv ((newImportsFor own).after (registerAll l)) := inv_after _
    generalize (newImportsFor own).after (registerAll l) = i at *
    rw [registerImportForPackage, registerImport, List.find?_append]
    by_cases ho : k.importPath = i.pkgPath
    · rw [prefixForPackage_own ho]
      dsimp only
      rw [ih p]
      cases hf : l.find? (fun x => decide (x.importPath = p)) with
      | some x => simp
      | none =>
        by_cases hp : k.importPath = p
        · subst hp; simp [ho, hown]
        · simp [hp]
    · have hko : k.importPath ≠ own := by rw [← hown]; exact ho
      cases hg : i.importsByPath.get k.importPath with
      | some d =>
        rw [prefixForPackage_known ho hg]
        dsimp only
        rw [ih p]
        rw [ih k.importPath] at hg
        cases hf : l.find? (fun x => decide (x.importPath = p)) with
        | some x => simp
        | none =>
          by_cases hp : k.importPath = p
          · rw [hp, hf] at hg; simp at hg
          · simp [hp]
      | none =>
        obtain ⟨q, hff, hq⟩ := prefixForPackage_new (n := k.name) ho hg
        rw [hq]
        have hbase : q = baseName k := by
          refine hff.unique ⟨0, rfl, ?_, fun j hj => absurd hj (Nat.not_lt_zero _)⟩
          cases hn : i.pathsByName.get (baseName k) with
          | none => rfl
          | some p' =>
            exfalso
            obtain ⟨d, hd, hdn⟩ := hinv.toPath _ _ hn
            rw [ih p'] at hd
            cases hf : l.find? (fun x => decide (x.importPath = p')) with
            | none => rw [hf] at hd; simp at hd
            | some x =>
              rw [hf] at hd
              by_cases hpo : p' = own
              · simp [hpo] at hd
              · simp only [hpo, if_false, Option.some.injEq] at hd
                subst hd
                have hx := List.mem_of_find?_eq_some hf
                have hxp := List.find?_some hf
                simp only [decide_eq_true_eq] at hxp
                have := (hcf x (by simp [hx]) k (by simp)).2 hdn
                rw [ih k.importPath, ← this, hxp, hf] at hg
                simp [hpo] at hg
        subst hbase
        simp only [Imports.add, GoMap.get_set]
        by_cases hp : p = k.importPath
        · subst hp
          simp only [if_true]
          have hf : l.find? (fun x => decide (x.importPath = k.importPath)) = none := by
            rw [ih k.importPath] at hg
            cases hf : l.find? (fun x => decide (x.importPath = k.importPath)) with
            | none => rfl
            | some x => rw [hf] at hg; simp [hko] at hg
          simp [hf, hko]
        · have hp' : ¬ k.importPath = p := fun h => hp h.symm
          simp only [hp, if_false, ih p]
          cases hf : l.find? (fun x => decide (x.importPath = p)) <;> simp [hp']

theorem find_perm {l l' : List Package} (hperm : l.Perm l') (hcf : ConflictFree l) (p : GoString) :
    l.find? (fun k => decide (k.importPath = p)) = l'.find? (fun k => decide (k.importPath = p)) := by
  cases hf : l.find? (fun k => decide (k.importPath = p)) with
  | none =>
    symm
    rw [List.find?_eq_none] at hf ⊢
    exact fun x hx => hf x (hperm.mem_iff.2 hx)
  | some x =>
    have hx := List.mem_of_find?_eq_some hf
    have hxp := List.find?_some hf
    cases hf' : l'.find? (fun k => decide (k.importPath = p)) with
    | none =>
      rw [List.find?_eq_none] at hf'
      exact absurd hxp (hf' x (hperm.mem_iff.1 hx))
    | some y =>
      have hy := List.mem_of_find?_eq_some hf'
      have hyp := List.find?_some hf'
      simp only [decide_eq_true_eq] at hxp hyp
      rw [(hcf x hx y (hperm.mem_iff.2 hy)).1 (hxp.trans hyp.symm)]

theorem ConflictFree.perm {l l' : List Package} (h : ConflictFree l) (hp : l.Perm l') :
    ConflictFree l' :=
  fun a ha b hb => h a (hp.mem_iff.2 ha) b (hp.mem_iff.2 hb)

/-- C14: registering conflict-free packages in any order gives the same prefixes and the same
import statements. -/
theorem C14_order_independent (own : GoString) {pkgs pkgs' : List Package}
    (hcf : ConflictFree pkgs) (hperm : pkgs.Perm pkgs') :
    ((newImportsFor own).after (registerAll pkgs)).importSpecs
      = ((newImportsFor own).after (registerAll pkgs')).importSpecs ∧
    ∀ p, (prefixFor p ((newImportsFor own).after (registerAll pkgs))).1
      = (prefixFor p ((newImportsFor own).after (registerAll pkgs'))).1 := by
  have hget : ∀ p, ((newImportsFor own).after (registerAll pkgs)).importsByPath.get p
      = ((newImportsFor own).after (registerAll pkgs')).importsByPath.get p := by
    intro p
    rw [registerAll_table own pkgs hcf, registerAll_table own pkgs' (hcf.perm hperm),
      find_perm hperm hcf]
  refine ⟨importSpecs_eq_of_get (inv_after _) (inv_after _) hget, fun p => ?_⟩
  have h1 : ((newImportsFor own).after (registerAll pkgs)).pkgPath = own :=
    ReachableFor.pkgPath ⟨_, rfl⟩
  have h2 : ((newImportsFor own).after (registerAll pkgs')).pkgPath = own :=
    ReachableFor.pkgPath ⟨_, rfl⟩
  have hget := hget p
  generalize (newImportsFor own).after (registerAll pkgs) = i at *
  generalize (newImportsFor own).after (registerAll pkgs') = j at *
  unfold prefixFor
  by_cases ho : p = own
  · rw [prefixForPackage_own (h1 ▸ ho), prefixForPackage_own (h2 ▸ ho)]
  · cases hg : i.importsByPath.get p with
    | none =>
      rw [prefixForPackage_unknown (by rw [h1]; exact ho) hg,
        prefixForPackage_unknown (by rw [h2]; exact ho) (hget ▸ hg)]
    | some d =>
      rw [prefixForPackage_known (by rw [h1]; exact ho) hg,
        prefixForPackage_known (by rw [h2]; exact ho) (hget ▸ hg)]

/-- C14: with conflict-free packages each one gets its own name as prefix, and no alias is printed
for those registered with a name. -/
theorem C14_no_aliases (own : GoString) {pkgs : List Package} (hcf : ConflictFree pkgs)
    {k : Package} (hk : k ∈ pkgs) (hko : k.importPath ≠ own) :
    (prefixFor k.importPath ((newImportsFor own).after (registerAll pkgs))).1
      = .ok ((if k.name = [] then pathBase k.importPath else k.name) ++ b! ".") ∧
    (k.name ≠ [] →
      ⟨[], k.importPath⟩ ∈ ((newImportsFor own).after (registerAll pkgs)).importSpecs) := by
  have hg := registerAll_table own pkgs hcf k.importPath
  have hf : pkgs.find? (fun x => decide (x.importPath = k.importPath)) = some k := by
    cases hf : pkgs.find? (fun x => decide (x.importPath = k.importPath)) with
    | none =>
      rw [List.find?_eq_none] at hf
      exact absurd (by simp) (hf k hk)
    | some x =>
      have hx := List.mem_of_find?_eq_some hf
      have hxp := List.find?_some hf
      simp only [decide_eq_true_eq] at hxp
      rw [(hcf x hx k hk).1 hxp]
  rw [hf] at hg
  simp only [hko, if_false] at hg
  have h1 : ((newImportsFor own).after (registerAll pkgs)).pkgPath = own :=
    ReachableFor.pkgPath ⟨_, rfl⟩
  constructor
  · rw [prefixFor, prefixForPackage_known (by rw [h1]; exact hko) hg]
    rfl
  · intro hn
    rw [mem_importSpecs (inv_after _)]
    refine ⟨_, hg, ?_⟩
    simp [baseName, hn]

/-- Three packages without conflicts. -/
def exPkgs : List Package := [⟨exA, b! "foo"⟩, ⟨exC, []⟩, ⟨b! "fmt", b! "fmt"⟩]

example : ConflictFree exPkgs := by unfold ConflictFree; decide
example : ((newImportsFor exOwn).after (registerAll exPkgs)).importSpecs =
    [⟨[], exA⟩, ⟨b! "foo1", exC⟩, ⟨[], b! "fmt"⟩] := by decide
/- With a conflict the order matters. -/
example : ((newImportsFor exOwn).after (registerAll [⟨exA, b! "foo"⟩, ⟨exB, b! "foo"⟩])).importSpecs
    ≠ ((newImportsFor exOwn).after (registerAll [⟨exB, b! "foo"⟩, ⟨exA, b! "foo"⟩])).importSpecs := by
  decide

end Gopoet
