import Mathlib.Data.List.Nodup
import Mathlib.Tactic.ByContra
import Verif.Proof.BaseLemmas
import Verif.Spec.Imports
/-!
# Lemmas about the import table: alias choice, invariants, evolution over calls
-/

namespace Gopoet

/-! ## The IM monad -/

namespace IM

@[simp] theorem pure_apply {α} (a : α) (i : Imports) : (pure a : IM α) i = (.ok a, i) := rfl
@[simp] theorem panic_apply {α} (i : Imports) : (IM.panic : IM α) i = (.panic, i) := rfl
@[simp] theorem lift_apply {α} (x : Outcome α) (i : Imports) : IM.lift x i = (x, i) := rfl

@[simp] theorem ite_apply {α} (c : Prop) [Decidable c] (x y : IM α) (i : Imports) :
    (if c then x else y : IM α) i = if c then x i else y i := by split <;> rfl

theorem bind_apply {α β} (x : IM α) (f : α → IM β) (i : Imports) :
    (x >>= f) i = match x i with
      | (.ok a, i') => f a i'
      | (.panic, i') => (.panic, i')
      | (.hang, i') => (.hang, i') := rfl

theorem bind_ok {α β} {x : IM α} {f : α → IM β} {i j : Imports} {a : α} (h : x i = (.ok a, j)) :
    (x >>= f) i = f a j := by rw [bind_apply, h]

theorem bind_panic {α β} {x : IM α} {f : α → IM β} {i j : Imports} (h : x i = (.panic, j)) :
    (x >>= f) i = (.panic, j) := by rw [bind_apply, h]

theorem bind_hang {α β} {x : IM α} {f : α → IM β} {i j : Imports} (h : x i = (.hang, j)) :
    (x >>= f) i = (.hang, j) := by rw [bind_apply, h]

end IM

/-! ## Candidate names -/

theorem candidate_injective (base : GoString) {m n : Nat} (h : candidate base m = candidate base n) :
    m = n := by
  cases m with
  | zero =>
    cases n with
    | zero => rfl
    | succ n =>
      simp only [candidate] at h
      have := List.append_cancel_left (as := base) (bs := []) (cs := decDigits (n + 1)) (by simpa using h)
      exact absurd this.symm (decDigits_ne_nil _)
  | succ m =>
    cases n with
    | zero =>
      simp only [candidate] at h
      have := List.append_cancel_left (as := base) (bs := decDigits (m + 1)) (cs := []) (by simpa using h)
      exact absurd this (decDigits_ne_nil _)
    | succ n =>
      simp only [candidate] at h
      exact decDigits_injective (List.append_cancel_left h)

theorem candidate_ne_nil {base : GoString} (h : base ≠ []) (n : Nat) : candidate base n ≠ [] := by
  cases n <;> simp [candidate, h]

/-- `q` is the first candidate for `base` that is not a key of the table. -/
def FirstFree (m : GoMap GoString GoString) (base q : GoString) : Prop :=
  ∃ n, q = candidate base n ∧ m.get q = none ∧ ∀ j < n, m.get (candidate base j) ≠ none

namespace Imports

theorem aliasLoop_some {m : GoMap GoString GoString} {base : GoString} :
    ∀ {fuel k : Nat} {q : GoString}, aliasLoop m base fuel (candidate base k) (k + 1) = some q →
      ∃ n, k ≤ n ∧ n < k + fuel ∧ q = candidate base n ∧ m.get q = none ∧
        ∀ j, k ≤ j → j < n → m.get (candidate base j) ≠ none := by
  intro fuel
  induction fuel with
  | zero => intro k q h; simp [aliasLoop] at h
  | succ fuel ih =>
    intro k q h
    simp only [aliasLoop] at h
    cases hg : m.get (candidate base k) with
    | none =>
      rw [hg] at h
      simp only [Option.some.injEq] at h
      subst h
      exact ⟨k, Nat.le_refl _, by omega, rfl, hg, fun j h1 h2 => by omega⟩
    | some v =>
      rw [hg] at h
      obtain ⟨n, h1, h2, h3, h4, h5⟩ := ih (k := k + 1) h
      refine ⟨n, by omega, by omega, h3, h4, fun j hj1 hj2 => ?_⟩
      by_cases hjk : j = k
      · subst hjk; simp [hg]
      · exact h5 j (by omega) hj2

theorem aliasLoop_none {m : GoMap GoString GoString} {base : GoString} :
    ∀ {fuel k : Nat}, aliasLoop m base fuel (candidate base k) (k + 1) = none →
      ∀ j, k ≤ j → j < k + fuel → m.get (candidate base j) ≠ none := by
  intro fuel
  induction fuel with
  | zero => intro k _ j h1 h2; omega
  | succ fuel ih =>
    intro k h j h1 h2
    simp only [aliasLoop] at h
    cases hg : m.get (candidate base k) with
    | none => rw [hg] at h; simp at h
    | some v =>
      rw [hg] at h
      by_cases hjk : j = k
      · subst hjk; simp [hg]
      · exact ih (k := k + 1) h j (by omega) (by omega)

/-- With one probe more than there are names in use the loop has found a free name. -/
theorem aliasLoop_terminates (m : GoMap GoString GoString) (base : GoString) :
    aliasLoop m base (m.length + 1) base 1 ≠ none := by
  intro h
  have h' := aliasLoop_none (k := 0) (base := base) (m := m) h
  have hsub : ∀ x ∈ (List.range (m.length + 1)).map (candidate base), x ∈ GoMap.keys m := by
    intro x hx
    obtain ⟨j, hj, rfl⟩ := List.mem_map.1 hx
    have := h' j (Nat.zero_le _) (by have := List.mem_range.1 hj; omega)
    by_contra hc
    exact this ((GoMap.get_eq_none_iff m _).2 hc)
  have hnd : ((List.range (m.length + 1)).map (candidate base)).Nodup :=
    List.Nodup.map (fun _ _ h => candidate_injective base h) List.nodup_range
  have := length_le_of_nodup_of_subset _ _ hnd hsub
  rw [GoMap.length_keys, List.length_map, List.length_range] at this
  exact absurd this (Nat.not_succ_le_self _)

theorem aliasLoop_firstFree (m : GoMap GoString GoString) (base : GoString) :
    ∃ q, aliasLoop m base (m.length + 1) base 1 = some q ∧ FirstFree m base q := by
  cases h : aliasLoop m base (m.length + 1) base 1 with
  | none => exact absurd h (aliasLoop_terminates m base)
  | some q =>
    obtain ⟨n, _, _, h3, h4, h5⟩ := aliasLoop_some (k := 0) h
    exact ⟨q, rfl, n, h3, h4, fun j hj => h5 j (Nat.zero_le _) hj⟩

/-- The base name for a package: the given name or else the last path element. -/
def baseName (p : Package) : GoString := if p.name = [] then pathBase p.importPath else p.name

end Imports

theorem pathBase_ne_nil (p : GoString) : pathBase p ≠ [] := by
  unfold pathBase
  split
  · simp
  · dsimp only
    split
    · simp
    · assumption

theorem baseName_ne_nil (p : Package) : Imports.baseName p ≠ [] := by
  unfold Imports.baseName
  split
  · exact pathBase_ne_nil _
  · assumption

theorem FirstFree.ne_nil {m : GoMap GoString GoString} {base q : GoString} (h : FirstFree m base q)
    (hb : base ≠ []) : q ≠ [] := by
  obtain ⟨n, rfl, _, _⟩ := h
  exact candidate_ne_nil hb n

theorem FirstFree.unique {m : GoMap GoString GoString} {base q q' : GoString}
    (h : FirstFree m base q) (h' : FirstFree m base q') : q = q' := by
  obtain ⟨n, rfl, h1, h2⟩ := h
  obtain ⟨n', rfl, h1', h2'⟩ := h'
  rcases Nat.lt_trichotomy n n' with hlt | heq | hgt
  · exact absurd h1 (h2' n hlt)
  · rw [heq]
  · exact absurd h1' (h2 n' hgt)

/-! ## Registering one package -/

/-- The state after path `p` got the name `q`. -/
def Imports.add (i : Imports) (p q : GoString) (isAlias : Bool) : Imports :=
  { i with
    pathsByName := i.pathsByName.set q p
    importsByPath := i.importsByPath.set p { packageName := q, isAlias } }

theorem prefixForPackage_own {i : Imports} {p n : GoString} {r : Bool} (h : p = i.pkgPath) :
    Imports.prefixForPackage p n r i = (.ok [], i) := by
  simp [Imports.prefixForPackage, h]

theorem prefixForPackage_known {i : Imports} {p n : GoString} {r : Bool} {d : ImportDef}
    (hne : p ≠ i.pkgPath) (h : i.importsByPath.get p = some d) :
    Imports.prefixForPackage p n r i = (.ok (d.packageName ++ b! "."), i) := by
  simp [Imports.prefixForPackage, hne, h]

theorem prefixForPackage_unknown {i : Imports} {p n : GoString}
    (hne : p ≠ i.pkgPath) (h : i.importsByPath.get p = none) :
    Imports.prefixForPackage p n false i = (.panic, i) := by
  simp [Imports.prefixForPackage, hne, h]

theorem prefixForPackage_new {i : Imports} {p n : GoString}
    (hne : p ≠ i.pkgPath) (h : i.importsByPath.get p = none) :
    ∃ q, FirstFree i.pathsByName (Imports.baseName ⟨p, n⟩) q ∧
      Imports.prefixForPackage p n true i
        = (.ok (q ++ b! "."), i.add p q (decide (q ≠ n))) := by
  obtain ⟨q, hq, hf⟩ := Imports.aliasLoop_firstFree i.pathsByName (Imports.baseName ⟨p, n⟩)
  refine ⟨q, hf, ?_⟩
  simp only [Imports.baseName] at hq
  simp [Imports.prefixForPackage, hne, h, hq, Imports.add]

/-! ## Evolution of the table -/

/-- One new registration, of a package allowed by `P`. -/
def Step (P : Package → Prop) (i j : Imports) : Prop :=
  ∃ (pkg : Package) (q : GoString), P pkg ∧ pkg.importPath ≠ i.pkgPath ∧
    i.importsByPath.get pkg.importPath = none ∧
    FirstFree i.pathsByName (Imports.baseName pkg) q ∧
    j = i.add pkg.importPath q (decide (q ≠ pkg.name))

/-- Any number of new registrations, of packages allowed by `P`. -/
inductive Evolves (P : Package → Prop) : Imports → Imports → Prop where
  | refl (i) : Evolves P i i
  | step {i j k} : Evolves P i j → Step P j k → Evolves P i k

theorem Evolves.trans {P : Package → Prop} {i j k : Imports} (h : Evolves P i j)
    (h' : Evolves P j k) : Evolves P i k := by
  induction h' with
  | refl => exact h
  | step _ hs ih => exact .step ih hs

theorem Step.mono {P Q : Package → Prop} (hpq : ∀ p, P p → Q p) {i j : Imports}
    (h : Step P i j) : Step Q i j := by
  obtain ⟨pkg, q, hp, hr⟩ := h
  exact ⟨pkg, q, hpq _ hp, hr⟩

theorem Evolves.mono {P Q : Package → Prop} (hpq : ∀ p, P p → Q p) {i j : Imports}
    (h : Evolves P i j) : Evolves Q i j := by
  induction h with
  | refl => exact .refl _
  | step _ hs ih => exact .step ih (hs.mono hpq)

/-- Running `x` only adds registrations of packages allowed by `P`, also when it panics. -/
def Runs {α} (P : Package → Prop) (x : IM α) : Prop := ∀ i, Evolves P i (x i).2

namespace Runs
variable {P Q : Package → Prop} {α β : Type}

theorem pure (a : α) : Runs P (pure a : IM α) := fun i => Evolves.refl i
theorem panic : Runs P (IM.panic : IM α) := fun i => Evolves.refl i
theorem lift (x : Outcome α) : Runs P (IM.lift x) := fun i => Evolves.refl i

theorem bind {x : IM α} {f : α → IM β} (hx : Runs P x) (hf : ∀ a, Runs P (f a)) :
    Runs P (x >>= f) := by
  intro i
  have h := hx i
  rw [IM.bind_apply]
  revert h
  rcases x i with ⟨_ | _ | _, j⟩ <;> intro h
  · exact h.trans (hf _ j)
  · exact h
  · exact h

theorem mono (hpq : ∀ p, P p → Q p) {x : IM α} (h : Runs P x) : Runs Q x :=
  fun i => (h i).mono hpq

theorem ite {c : Prop} [Decidable c] {x y : IM α} (hx : Runs P x) (hy : Runs P y) :
    Runs P (if c then x else y) := by split <;> assumption

end Runs

theorem runs_prefixForPackage (p n : GoString) (r : Bool) :
    Runs (fun pkg => r = true ∧ pkg = ⟨p, n⟩) (Imports.prefixForPackage p n r) := by
  intro i
  by_cases hown : p = i.pkgPath
  · rw [prefixForPackage_own hown]; exact .refl _
  · cases hg : i.importsByPath.get p with
    | some d => rw [prefixForPackage_known hown hg]; exact .refl _
    | none =>
      cases r with
      | false => rw [prefixForPackage_unknown hown hg]; exact .refl _
      | true =>
        obtain ⟨q, hf, hq⟩ := prefixForPackage_new (n := n) hown hg
        rw [hq]
        exact .step (.refl _) ⟨⟨p, n⟩, q, ⟨rfl, rfl⟩, hown, hg, hf, rfl⟩

/-- A symbol without a package, such as a builtin. -/
def Symbol.isBuiltin (s : Symbol) : Prop := s.package.name = [] ∧ s.package.importPath = []

instance (s : Symbol) : Decidable s.isBuiltin := by unfold Symbol.isBuiltin; infer_instance

theorem runs_qualify (s : Symbol) (r : Bool) :
    Runs (fun pkg => r = true ∧ ¬ s.isBuiltin ∧ pkg = s.package) (Imports.qualify s r) := by
  unfold Imports.qualify
  split
  · exact Runs.pure _
  · rename_i hb
    refine Runs.bind ((runs_prefixForPackage _ _ _).mono ?_) fun a => ?_
    · rintro p ⟨hr, hp⟩; exact ⟨hr, hb, hp⟩
    · exact Runs.ite (Runs.pure _) (Runs.pure _)

/-- The packages of the symbols in a list. -/
def pkgsOf (r : Bool) (l : List Symbol) : Package → Prop :=
  fun pkg => r = true ∧ ∃ s ∈ l, ¬ s.isBuiltin ∧ s.package = pkg

theorem pkgsOf_mono {r : Bool} {l l' : List Symbol} (h : ∀ s ∈ l, s ∈ l') :
    ∀ p, pkgsOf r l p → pkgsOf r l' p := by
  rintro p ⟨hr, s, hs, hp⟩
  exact ⟨hr, s, h s hs, hp⟩

theorem runs_qualifySymbols (r : Bool) : ∀ l, Runs (pkgsOf r l) (Imports.qualifySymbols r l)
  | [] => Runs.pure _
  | s :: l => by
    unfold Imports.qualifySymbols
    refine Runs.bind ?_ fun nt => Runs.bind ?_ fun p => Runs.pure _
    · exact (runs_qualify s r).mono (by rintro p ⟨hr, hb, rfl⟩; exact ⟨hr, s, by simp, hb, rfl⟩)
    · exact (runs_qualifySymbols r l).mono (pkgsOf_mono (by intro s hs; simp [hs]))

open Imports in
mutual
theorem runs_qualifyType (r : Bool) : ∀ t, Runs (pkgsOf r t.symbols) (qualifyType r t)
  | .nil => by rw [qualifyType]; exact Runs.panic
  | .basic k => by rw [qualifyType]; exact Runs.pure _
  | .named s => by
    rw [qualifyType]
    refine Runs.bind ((runs_qualify s r).mono ?_) fun a => Runs.ite (Runs.pure _) (Runs.pure _)
    rintro p ⟨hr, hb, rfl⟩; exact ⟨hr, s, by simp [TypeName.symbols], hb, rfl⟩
  | .ptr e => by
    rw [qualifyType, TypeName.symbols]
    exact Runs.bind (runs_qualifyType r e) fun a =>
      Runs.ite (Runs.bind (Runs.lift _) fun _ => Runs.pure _) (Runs.pure _)
  | .slice e => by
    rw [qualifyType, TypeName.symbols]
    exact Runs.bind (runs_qualifyType r e) fun a =>
      Runs.ite (Runs.bind (Runs.lift _) fun _ => Runs.pure _) (Runs.pure _)
  | .array e n => by
    rw [qualifyType, TypeName.symbols]
    exact Runs.bind (runs_qualifyType r e) fun a =>
      Runs.ite (Runs.bind (Runs.lift _) fun _ => Runs.pure _) (Runs.pure _)
  | .map e k => by
    rw [qualifyType, TypeName.symbols]
    exact Runs.bind ((runs_qualifyType r k).mono (pkgsOf_mono fun s hs => by simp [hs])) fun a =>
      Runs.bind ((runs_qualifyType r e).mono (pkgsOf_mono fun s hs => by simp [hs])) fun b =>
      Runs.ite (Runs.bind (Runs.lift _) fun _ => Runs.pure _) (Runs.pure _)
  | .chan e d => by
    rw [qualifyType, TypeName.symbols]
    exact Runs.bind (runs_qualifyType r e) fun a =>
      Runs.ite (Runs.bind (Runs.lift _) fun _ => Runs.pure _) (Runs.pure _)
  | .func s => by
    rw [qualifyType, TypeName.symbols]
    exact Runs.bind (runs_qualifySignature r s) fun a =>
      Runs.ite (Runs.bind (Runs.lift _) fun _ => Runs.pure _) (Runs.pure _)
  | .struct fs => by
    rw [qualifyType, TypeName.symbols]
    exact Runs.bind (runs_qualifyFields r fs) fun a => Runs.ite (Runs.pure _) (Runs.pure _)
  | .interface ms es => by
    rw [qualifyType, TypeName.symbols]
    exact Runs.bind ((runs_qualifySymbols r es).mono (pkgsOf_mono fun s hs => by simp [hs])) fun a =>
      Runs.bind ((runs_qualifyMethods r ms).mono (pkgsOf_mono fun s hs => by simp [hs])) fun b =>
      Runs.ite (Runs.pure _) (Runs.pure _)
theorem runs_qualifySignature (r : Bool) :
    ∀ s, Runs (pkgsOf r s.symbols) (qualifySignature r s)
  | ⟨args, results, v⟩ => by
    rw [qualifySignature, Signature.symbols]
    exact Runs.bind ((runs_qualifyArgs r args).mono (pkgsOf_mono fun s hs => by simp [hs])) fun a =>
      Runs.bind ((runs_qualifyArgs r results).mono (pkgsOf_mono fun s hs => by simp [hs])) fun b =>
      Runs.ite (Runs.pure _) (Runs.pure _)
theorem runs_qualifyArgs (r : Bool) : ∀ l, Runs (pkgsOf r (symbolsArgs l)) (qualifyArgs r l)
  | [] => by rw [qualifyArgs]; exact Runs.pure _
  | ⟨n, t⟩ :: l => by
    rw [qualifyArgs, symbolsArgs]
    exact Runs.bind ((runs_qualifyType r t).mono (pkgsOf_mono fun s hs => by simp [hs])) fun a =>
      Runs.bind ((runs_qualifyArgs r l).mono (pkgsOf_mono fun s hs => by simp [hs])) fun b =>
      Runs.pure _
theorem runs_qualifyFields (r : Bool) : ∀ l, Runs (pkgsOf r (symbolsFields l)) (qualifyFields r l)
  | [] => by rw [qualifyFields]; exact Runs.pure _
  | ⟨n, t, tag⟩ :: l => by
    rw [qualifyFields, symbolsFields]
    exact Runs.bind ((runs_qualifyType r t).mono (pkgsOf_mono fun s hs => by simp [hs])) fun a =>
      Runs.bind ((runs_qualifyFields r l).mono (pkgsOf_mono fun s hs => by simp [hs])) fun b =>
      Runs.pure _
theorem runs_qualifyMethods (r : Bool) :
    ∀ l, Runs (pkgsOf r (symbolsMethods l)) (qualifyMethods r l)
  | [] => by rw [qualifyMethods]; exact Runs.pure _
  | ⟨n, t⟩ :: l => by
    rw [qualifyMethods, symbolsMethods]
    exact Runs.bind ((runs_qualifySignature r t).mono (pkgsOf_mono fun s hs => by simp [hs])) fun a =>
      Runs.bind ((runs_qualifyMethods r l).mono (pkgsOf_mono fun s hs => by simp [hs])) fun b =>
      Runs.pure _
end

/-- Every call only adds registrations of the packages it was given. -/
theorem evolves_call (c : Call) (i : Imports) : Evolves (· ∈ c.packages) i (c.exec i) := by
  have noPkg : ∀ (P : Package → Prop) {l : List Symbol} p, pkgsOf false l p → P p := by
    rintro P l p ⟨h, _⟩; exact absurd h (by simp)
  have hall : ∀ {l : List Symbol} {p}, pkgsOf true l p → p ∈ packagesOf l := by
    rintro l p ⟨_, s, hs, hb, rfl⟩
    refine List.mem_filter.2 ⟨List.mem_map.2 ⟨s, hs, rfl⟩, ?_⟩
    simp only [ne_eq, decide_eq_true_eq]
    intro h; exact hb ⟨by rw [h], by rw [h]⟩
  cases c with
  | registerImport p n =>
    exact (runs_prefixForPackage p n true i).mono (by rintro _ ⟨_, rfl⟩; simp [Call.packages])
  | registerImportForPackage pkg =>
    exact (runs_prefixForPackage _ _ true i).mono (by rintro _ ⟨_, rfl⟩; simp [Call.packages])
  | ensureImported s =>
    exact (runs_qualify s true i).mono (by
      rintro _ ⟨_, hb, rfl⟩; exact hall ⟨rfl, s, by simp, hb, rfl⟩)
  | ensureTypeImported t =>
    exact Runs.bind ((runs_qualifyType true t).mono fun p hp => hall hp) (fun _ => Runs.pure _) i
  | ensureAllTypesImported s =>
    exact Runs.bind ((runs_qualifySignature true s).mono fun p hp => hall hp) (fun _ => Runs.pure _) i
  | prefixForPackage p =>
    exact (runs_prefixForPackage p [] false i).mono (by rintro _ ⟨h, _⟩; exact absurd h (by simp))
  | qualify s =>
    exact (runs_qualify s false i).mono (by rintro _ ⟨h, _⟩; exact absurd h (by simp))
  | qualifyType t =>
    exact Runs.bind ((runs_qualifyType false t).mono (noPkg _)) (fun _ => Runs.pure _) i
  | qualifySignature s =>
    exact Runs.bind ((runs_qualifySignature false s).mono (noPkg _)) (fun _ => Runs.pure _) i

/-- Any history of calls only adds registrations of packages that its calls were given. -/
theorem evolves_after (history : List Call) (i : Imports) :
    Evolves (fun p => ∃ c ∈ history, p ∈ c.packages) i (i.after history) := by
  induction history generalizing i with
  | nil => exact .refl _
  | cons c h ih =>
    refine Evolves.trans ((evolves_call c i).mono fun p hp => ⟨c, by simp, hp⟩) ?_
    exact (ih (c.exec i)).mono (fun p ⟨c', h1, h2⟩ => ⟨c', by simp [h1], h2⟩)

/-! ## Monotonicity -/

/-- `j` extends `i`: same own package, all entries kept. -/
structure Ext (i j : Imports) : Prop where
  own : j.pkgPath = i.pkgPath
  keeps : ∀ p d, i.importsByPath.get p = some d → j.importsByPath.get p = some d

theorem Ext.refl (i : Imports) : Ext i i := ⟨rfl, fun _ _ h => h⟩

theorem Ext.trans {i j k : Imports} (h : Ext i j) (h' : Ext j k) : Ext i k :=
  ⟨h'.own.trans h.own, fun p d hp => h'.keeps p d (h.keeps p d hp)⟩

theorem Step.ext {P : Package → Prop} {i j : Imports} (h : Step P i j) : Ext i j := by
  obtain ⟨pkg, q, _, _, hnone, _, rfl⟩ := h
  refine ⟨rfl, fun p d hp => ?_⟩
  have : p ≠ pkg.importPath := by rintro rfl; rw [hnone] at hp; simp at hp
  simp only [Imports.add]
  rw [GoMap.get_set_ne _ _ this]
  exact hp

theorem Evolves.ext {P : Package → Prop} {i j : Imports} (h : Evolves P i j) : Ext i j := by
  induction h with
  | refl => exact .refl _
  | step _ hs ih => exact ih.trans hs.ext

/-- Without allowed packages nothing changes. -/
theorem Evolves.eq_of_false {P : Package → Prop} (hP : ∀ p, ¬ P p) {i j : Imports}
    (h : Evolves P i j) : j = i := by
  induction h with
  | refl => rfl
  | step _ hs _ => obtain ⟨pkg, _, hp, _⟩ := hs; exact absurd hp (hP _)

/-! ## The invariant -/

/-- The two tables describe one bijection between paths and non-empty names. -/
structure Inv (i : Imports) : Prop where
  nodupPaths : i.importsByPath.keys.Nodup
  nodupNames : i.pathsByName.keys.Nodup
  toName : ∀ p d, i.importsByPath.get p = some d → i.pathsByName.get d.packageName = some p
  toPath : ∀ q p, i.pathsByName.get q = some p →
    ∃ d, i.importsByPath.get p = some d ∧ d.packageName = q
  ownAbsent : i.importsByPath.get i.pkgPath = none
  nonempty : ∀ p d, i.importsByPath.get p = some d → d.packageName ≠ []

theorem inv_new (own : GoString) : Inv (newImportsFor own) := by
  constructor <;> simp [newImportsFor, GoMap.keys]

theorem Step.inv {P : Package → Prop} {i j : Imports} (h : Step P i j) (hi : Inv i) : Inv j := by
  obtain ⟨pkg, q, _, hown, hnone, hff, rfl⟩ := h
  have hfree : i.pathsByName.get q = none := by obtain ⟨n, rfl, h, _⟩ := hff; exact h
  have hq : q ≠ [] := hff.ne_nil (baseName_ne_nil pkg)
  refine ⟨GoMap.keys_nodup_set hi.nodupPaths _ _, GoMap.keys_nodup_set hi.nodupNames _ _,
    ?_, ?_, ?_, ?_⟩
  · intro p d hp
    simp only [Imports.add, GoMap.get_set] at hp ⊢
    split at hp
    · rename_i hpp; simp only [Option.some.injEq] at hp; subst hp; simp [hpp]
    · have h1 := hi.toName p d hp
      split
      · rename_i hqq; rw [hqq, hfree] at h1; simp at h1
      · exact h1
  · intro q' p hp
    simp only [Imports.add, GoMap.get_set] at hp ⊢
    split at hp
    · rename_i hqq; simp only [Option.some.injEq] at hp; subst hp; simp [hqq]
    · obtain ⟨d, h1, h2⟩ := hi.toPath q' p hp
      refine ⟨d, ?_, h2⟩
      split
      · rename_i hpp; rw [hpp, hnone] at h1; simp at h1
      · exact h1
  · simp only [Imports.add, GoMap.get_set, Ne.symm hown, if_false]
    exact hi.ownAbsent
  · intro p d hp
    simp only [Imports.add, GoMap.get_set] at hp
    split at hp
    · simp only [Option.some.injEq] at hp; subst hp; exact hq
    · exact hi.nonempty p d hp

theorem Evolves.inv {P : Package → Prop} {i j : Imports} (h : Evolves P i j) (hi : Inv i) :
    Inv j := by
  induction h with
  | refl => exact hi
  | step _ hs ih => exact hs.inv ih

theorem inv_after {own : GoString} (history : List Call) :
    Inv ((newImportsFor own).after history) :=
  (evolves_after history _).inv (inv_new own)

theorem Reachable.inv {i : Imports} (h : Reachable i) : Inv i := by
  obtain ⟨own, history, rfl⟩ := h
  exact inv_after history

theorem ReachableFor.pkgPath {own : GoString} {i : Imports} (h : ReachableFor own i) :
    i.pkgPath = own := by
  obtain ⟨history, rfl⟩ := h
  exact (evolves_after history _).ext.own

theorem Reachable.exec {i : Imports} (h : Reachable i) (c : Call) : Reachable (c.exec i) := by
  obtain ⟨own, history, rfl⟩ := h
  exact ⟨own, history ++ [c], by simp [Imports.after]⟩

theorem Reachable.after {i : Imports} (h : Reachable i) (cs : List Call) :
    Reachable (i.after cs) := by
  obtain ⟨own, history, rfl⟩ := h
  exact ⟨own, history ++ cs, by simp [Imports.after]⟩

/-! ## What evolution adds -/

/-- The paths in the table after an evolution: the old ones and some of the allowed ones. -/
theorem Evolves.paths {P : Package → Prop} {i j : Imports} (h : Evolves P i j) (p : GoString)
    (hp : j.importsByPath.get p ≠ none) :
    i.importsByPath.get p ≠ none ∨ (p ≠ i.pkgPath ∧ ∃ pkg, P pkg ∧ pkg.importPath = p) := by
  induction h with
  | refl => exact .inl hp
  | step he hs ih =>
    obtain ⟨pkg, q, hP, hown, hnone, hff, rfl⟩ := hs
    simp only [Imports.add, GoMap.get_set] at hp
    split at hp
    · rename_i hpp; subst hpp
      exact .inr ⟨he.ext.own ▸ hown, pkg, hP, rfl⟩
    · exact ih hp

/-- Every entry comes from an allowed package: its name is a candidate for that package and the
alias flag tells whether it differs from the name given. -/
theorem Evolves.entries {P : Package → Prop} {own : GoString} {j : Imports}
    (h : Evolves P (newImportsFor own) j) (p : GoString) (d : ImportDef)
    (hp : j.importsByPath.get p = some d) :
    ∃ pkg n, P pkg ∧ pkg.importPath = p ∧ d.packageName = candidate (Imports.baseName pkg) n ∧
      d.isAlias = decide (d.packageName ≠ pkg.name) := by
  generalize hi : newImportsFor own = i at h
  induction h with
  | refl => subst hi; simp [newImportsFor] at hp
  | step he hs ih =>
    obtain ⟨pkg, q, hP, hown, hnone, ⟨n, hq, _⟩, rfl⟩ := hs
    simp only [Imports.add, GoMap.get_set] at hp
    split at hp
    · rename_i hpp; subst hpp
      simp only [Option.some.injEq] at hp; subst hp
      exact ⟨pkg, n, hP, rfl, hq, rfl⟩
    · exact ih hp

end Gopoet
