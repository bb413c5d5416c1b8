import Verif.Props.Imports
import Mathlib.Tactic.ByContra
/-! Property C14: exactly when the order in which packages are registered has no influence. -/

namespace Gopoet
open Imports

/-- Registering a package gives it a prefix and changes no other. -/
theorem prefixFor_register (q n p : GoString) (i : Imports) :
    (prefixFor p (registerImport q n i).2).1 = if p = q then (registerImport q n i).1 else (prefixFor p i).1 := by
  obtain ⟨a, j, e, f⟩ := registerImport_ok q n i
  split
  · rename_i h
    rw [h, e, f]
  · rename_i h
    rw [registerImport] at e ⊢
    rw [prefixFor]
    by_cases ho : q = i.pkgPath
    · rw [prefixForPackage_own ho]
    · cases hg : i.importsByPath.get q with
      | some d => rw [prefixForPackage_known ho hg]
      | none =>
        obtain ⟨x, -, hx⟩ := prefixForPackage_new (n := n) ho hg
        rw [hx]
        simp only [prefixForPackage, Imports.add, GoMap.get_set_ne _ _ h]
        split
        · rfl
        · split <;> rfl

/-- A path has a prefix if it is the own one or imported. -/
theorem prefixFor_ok_iff (i : Imports) (p : GoString) :
    (∃ a, (prefixFor p i).1 = .ok a) ↔ p = i.pkgPath ∨ p ∈ i.importedPaths := by
  rw [Imports.importedPaths, mem_importPaths, prefixFor, prefixForPackage]
  split
  · rename_i h; exact ⟨fun _ => .inl h, fun _ => ⟨_, rfl⟩⟩
  · rename_i h
    split
    · rename_i d hd; rw [hd]; simp
    · rename_i hd; rw [hd]; simp [h]

theorem prefixFor_cases (p : GoString) (i : Imports) : (∃ a, (prefixFor p i).1 = .ok a) ∨ (prefixFor p i).1 = .panic := by
  rw [prefixFor, prefixForPackage]
  split
  · exact .inl ⟨_, rfl⟩
  · split
    · exact .inl ⟨_, rfl⟩
    · exact .inr rfl

theorem registerImport_known {i : Imports} {p n a : GoString} (h : (prefixFor p i).1 = .ok a) :
    (registerImport p n i).1 = .ok a := by
  rw [prefixFor, prefixForPackage] at h
  rw [registerImport, prefixForPackage]
  split at h
  · rename_i ho; rw [if_pos ho]; exact h
  · rename_i ho
    rw [if_neg ho]
    split at h
    · exact h
    · cases h

/-- Packages that would get different prefixes if each were the only one that is registered; what is registered twice
would get the same. -/
def SoloDistinct (i : Imports) (pkgs : List Package) : Prop :=
  ∀ a ∈ pkgs, ∀ b ∈ pkgs,
    ((registerImportForPackage a i).1 = (registerImportForPackage b i).1 ↔ a.importPath = b.importPath)

theorem SoloDistinct.register {i : Imports} (hi : Reachable i) {pkgs done : List Package} (hs : SoloDistinct i pkgs)
    (hdone : ∀ k ∈ done, k ∈ pkgs)
    (ih : ∀ p a, (prefixFor p (i.after (registerAll done))).1 = .ok a ↔
      (prefixFor p i).1 = .ok a ∨ ∃ k ∈ done, k.importPath = p ∧ (registerImportForPackage k i).1 = .ok a)
    {k : Package} (hk : k ∈ pkgs) :
    (registerImportForPackage k (i.after (registerAll done))).1 = (registerImportForPackage k i).1 := by
  have hj := hi.after (registerAll done)
  have hown : (i.after (registerAll done)).pkgPath = i.pkgPath := (evolves_after (registerAll done) i).ext.own
  generalize i.after (registerAll done) = j at *
  obtain ⟨x, y⟩ := k
  simp only [registerImportForPackage]
  by_cases h1 : ∃ a, (prefixFor x j).1 = .ok a
  · obtain ⟨a, ha⟩ := h1
    rw [registerImport_known ha]
    rcases (ih x a).1 ha with h | ⟨k', hk', rfl, h⟩
    · rw [registerImport_known h]
    · rw [registerImportForPackage] at h
      rw [← h]
      exact (hs _ (hdone _ hk') _ hk).2 rfl
  · have hx : ¬ ∃ a, (prefixFor x i).1 = .ok a := fun ⟨a, ha⟩ => h1 ⟨a, (ih x a).2 (.inl ha)⟩
    have hx' := hx
    have h1' := h1
    rw [prefixFor_ok_iff i, not_or] at hx
    rw [prefixFor_ok_iff j, not_or] at h1
    obtain ⟨k1, -, e1, f1, u1⟩ := C04_first_free_candidate (n := y) hi hx.1 hx.2
    obtain ⟨k2, -, e2, f2, u2⟩ := C04_first_free_candidate (n := y) hj h1.1 h1.2
    rcases Nat.lt_trichotomy k1 k2 with hlt | rfl | hlt
    · exfalso
      obtain ⟨q, hq⟩ := u2 k1 hlt
      rcases (ih q _).1 hq with h | ⟨k', hk', rfl, h⟩
      · exact f1 ⟨q, h⟩
      · have := (hs _ (hdone _ hk') _ hk).1 (h.trans e1.symm)
        rw [this] at hq
        exact h1' ⟨_, hq⟩
    · rw [e1, e2]
    · exfalso
      obtain ⟨q, hq⟩ := u1 k2 hlt
      exact f2 ⟨q, (ih q _).2 (.inl hq)⟩

theorem SoloDistinct.prefixes {i : Imports} (hi : Reachable i) {pkgs : List Package} (hs : SoloDistinct i pkgs) :
    ∀ done : List Package, (∀ k ∈ done, k ∈ pkgs) → ∀ p a, (prefixFor p (i.after (registerAll done))).1 = .ok a ↔
      (prefixFor p i).1 = .ok a ∨ ∃ k ∈ done, k.importPath = p ∧ (registerImportForPackage k i).1 = .ok a := by
  intro done
  induction done using List.reverseRec with
  | nil =>
    intro _ p a
    simp [registerAll, Imports.after]
  | append_singleton l k ih =>
    intro hsub p a
    have ih := ih fun x hx => hsub x (List.mem_append_left _ hx)
    have hkp : k ∈ pkgs := hsub k (List.mem_append_right _ List.mem_cons_self)
    have hreg := hs.register hi (fun x hx => hsub x (List.mem_append_left _ hx)) ih hkp
    have hstate : i.after (registerAll (l ++ [k])) = (registerImportForPackage k (i.after (registerAll l))).2 := by
      simp [registerAll, Imports.after, Call.exec]
    rw [hstate, registerImportForPackage, prefixFor_register]
    rw [registerImportForPackage] at hreg
    split
    · rename_i hp
      rw [hreg]
      constructor
      · intro h
        exact .inr ⟨k, List.mem_append_right _ List.mem_cons_self, hp.symm, h⟩
      · rintro (h | ⟨k', hk', h1, h2⟩)
        · rw [hp] at h
          exact registerImport_known h
        · rw [← h2]
          exact (hs _ hkp _ (hsub _ hk')).2 (hp.symm.trans h1.symm)
    · rename_i hp
      rw [ih p a]
      constructor
      · rintro (h | ⟨k', hk', h⟩)
        · exact .inl h
        · exact .inr ⟨k', List.mem_append_left _ hk', h⟩
      · rintro (h | ⟨k', hk', h1, h2⟩)
        · exact .inl h
        · rcases List.mem_append.1 hk' with hk' | hk'
          · exact .inr ⟨k', hk', h1, h2⟩
          · cases List.mem_singleton.1 hk'
            exact absurd h1.symm hp

/-- C14, exactly: the order in which packages are registered with an Imports has no influence on the prefixes if and only
if they would get different prefixes when each is the only one. They may well be aliases. -/
theorem C14_order_iff {i : Imports} (hi : Reachable i) (pkgs : List Package) :
    (∀ pkgs', pkgs'.Perm pkgs → ∀ p, (prefixFor p (i.after (registerAll pkgs'))).1 = (prefixFor p (i.after (registerAll pkgs))).1) ↔
      SoloDistinct i pkgs := by
  constructor
  · intro h
    -- the package that is registered first gets the prefix that it would get alone
    have first : ∀ a ∈ pkgs, (prefixFor a.importPath (i.after (registerAll pkgs))).1 = (registerImportForPackage a i).1 := by
      intro a ha
      have hp := (List.perm_cons_erase ha).symm
      rw [← h _ hp]
      obtain ⟨x, j, e, -⟩ := registerImport_ok a.importPath a.name i
      have := (C02_prefix_stable e (registerAll (pkgs.erase a)) []).2
      have hst : i.after (registerAll (a :: pkgs.erase a)) = j.after (registerAll (pkgs.erase a)) := by
        simp only [registerAll, List.map_cons, Imports.after, List.foldl_cons, Call.exec, registerImportForPackage, e]
      rw [hst, this, registerImportForPackage, e]
    intro a ha b hb
    rw [← first a ha, ← first b hb]
    constructor
    · intro e
      obtain ⟨x, j, e1, -⟩ := registerImport_ok a.importPath a.name i
      have hx : (prefixFor a.importPath (i.after (registerAll pkgs))).1 = .ok x := by
        rw [first a ha, registerImportForPackage, e1]
      exact C01_prefixes_unique (hi.after _) hx (e ▸ hx)
    · intro e
      rw [e]
  · intro hs pkgs' hp p
    have h1 := hs.prefixes hi pkgs (fun _ h => h) p
    have h2 := hs.prefixes hi pkgs' (fun _ h => hp.mem_iff.1 h) p
    have hiff : ∀ a, (prefixFor p (i.after (registerAll pkgs'))).1 = .ok a ↔
        (prefixFor p (i.after (registerAll pkgs))).1 = .ok a := by
      intro a
      rw [h1, h2]
      simp only [hp.mem_iff]
    rcases prefixFor_cases p (i.after (registerAll pkgs)) with ⟨a, ha⟩ | hpan
    · rw [ha]; exact (hiff a).2 ha
    · rcases prefixFor_cases p (i.after (registerAll pkgs')) with ⟨a, ha⟩ | hpan'
      · rw [(hiff a).1 ha] at hpan; cases hpan
      · rw [hpan, hpan']

/-- If `foo` and `foo1` are taken, a second `foo` and a second `foo1` become `foo2` and `foo11` whatever the order. If only
`foo` is taken, both want to be `foo1`. -/
example : SoloDistinct ((newImportsFor exOwn).after [.registerImport (b! "x/foo") (b! "foo"), .registerImport (b! "x/foo1") (b! "foo1")])
      [⟨b! "y/foo", b! "foo"⟩, ⟨b! "y/foo1", b! "foo1"⟩] ∧
    ¬ SoloDistinct ((newImportsFor exOwn).after [.registerImport (b! "x/foo") (b! "foo")])
      [⟨b! "y/foo", b! "foo"⟩, ⟨b! "y/foo1", b! "foo1"⟩] := by
  constructor <;> (unfold SoloDistinct; decide)

example : (((newImportsFor exOwn).after [.registerImport (b! "x/foo") (b! "foo"), .registerImport (b! "x/foo1") (b! "foo1")]).after
      (registerAll [⟨b! "y/foo1", b! "foo1"⟩, ⟨b! "y/foo", b! "foo"⟩])).importSpecs =
    [⟨[], b! "x/foo"⟩, ⟨[], b! "x/foo1"⟩, ⟨b! "foo2", b! "y/foo"⟩, ⟨b! "foo11", b! "y/foo1"⟩] := by decide

end Gopoet
