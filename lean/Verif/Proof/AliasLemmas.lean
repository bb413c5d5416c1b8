import Verif.Proof.TruthLemmas
import Verif.Proof.LexLemmas
/-! The names in an import table are identifiers if the names given are. -/

namespace Gopoet
open Imports

theorem keyword_digit {w : GoString} {b : UInt8} (hb : w.getLast? = some b) (hd : isDigitByte b = true) :
    keyword? w = none := by
  have key : ∀ e ∈ keywords, ∀ b, e.1.getLast? = some b → isDigitByte b = false := by decide
  rw [keyword?, Option.map_eq_none_iff, List.find?_eq_none]
  intro e he h
  simp only [beq_iff_eq] at h
  subst h
  rw [key e he b hb] at hd
  simp at hd

theorem isIdent_candidate {base : GoString} (h : isIdent base = true) (n : Nat) :
    isIdent (candidate base n) = true := by
  cases n with
  | zero => exact h
  | succ n =>
    have hd : ∀ x ∈ decDigits (n + 1), isDigitByte x = true :=
      List.all_eq_true.1 (decDigitsAux_spec (n + 1 + 1) (n + 1) (by omega)).2.1
    have hne := decDigits_ne_nil (n + 1)
    rw [candidate]
    generalize decDigits (n + 1) = ds at hd hne
    cases base with
    | nil => simp [isIdent] at h
    | cons b base =>
      simp only [isIdent, Bool.and_eq_true] at h ⊢
      refine ⟨⟨h.1.1, ?_⟩, ?_⟩
      · rw [List.all_append, h.1.2, Bool.true_and, List.all_eq_true]
        intro x hx
        simp [isWordByte, hd x hx]
      · have hl : (b :: base ++ ds).getLast? = some (ds.getLast hne) := by
          rw [List.getLast?_append_of_ne_nil _ hne, List.getLast?_eq_some_getLast hne]
        rw [keyword_digit hl (hd _ (List.getLast_mem hne))]
        rfl

/-- The names in the table are identifiers. A package without path is called `.`. -/
def IdentNames (i : Imports) : Prop := ∀ p d, i.importsByPath.get p = some d →
  isIdent d.packageName = true ∨ p = [] ∧ d.packageName = b! "."

/-- The name of the package is an identifier, or will not be looked at. -/
def IdentOrKnown (i : Imports) (pk : Package) : Prop := isIdent (baseName pk) = true ∨ PkgKnown i pk

theorem Ext.identOrKnown {i j : Imports} (h : Ext i j) {pk : Package} (hp : IdentOrKnown i pk) :
    IdentOrKnown j pk := hp.imp id h.known

theorem Step.identNames {P : Package → Prop} {i j : Imports} (hs : Step P i j) (inv : Inv i)
    (hP : ∀ pk, P pk → j.importsByPath.get pk.importPath ≠ none → IdentOrKnown i pk) (ht : IdentNames i) :
    IdentNames j := by
  obtain ⟨pkg, q, hp, hown, hnone, ⟨n, rfl, hfree, hleast⟩, rfl⟩ := hs
  intro p d hd
  simp only [Imports.add, GoMap.get_set] at hd
  split at hd
  · rename_i he
    obtain rfl := Option.some.inj hd
    dsimp only
    rcases hP pkg hp (by simp [Imports.add]) with h | rfl | h | h
    · exact .inl (isIdent_candidate h n)
    · have hdot : (i.pathsByName.get (b! ".")) = none := by
        cases hg : i.pathsByName.get (b! ".") with
        | none => rfl
        | some p =>
          obtain ⟨d, h1, h2⟩ := inv.toPath _ _ hg
          rcases ht p d h1 with h3 | ⟨rfl, _⟩
          · rw [h2] at h3; exact absurd h3 (by decide)
          · rw [h1] at hnone; simp at hnone
      have hb : baseName ⟨[], []⟩ = b! "." := by decide
      rw [hb] at hleast ⊢
      cases n with
      | zero => exact .inr ⟨he, rfl⟩
      | succ n => exact absurd hdot (hleast 0 (by omega))
    · exact absurd h hown
    · exact absurd hnone h
  · exact ht p d hd

theorem Evolves.identNames {P : Package → Prop} {i j : Imports} (h : Evolves P i j) (inv : Inv i)
    (hP : ∀ pk, P pk → j.importsByPath.get pk.importPath ≠ none → IdentOrKnown i pk) (ht : IdentNames i) :
    IdentNames j := by
  induction h with
  | refl => exact ht
  | step he hs ih =>
    have hs' := hs.ext
    exact hs.identNames (he.inv inv) (fun pk hp hj => he.ext.identOrKnown (hP pk hp hj))
      (ih fun pk hp hj => hP pk hp (hs'.imported hj))

/-- What is known before and after a pass: the names of packages that are mentioned are identifiers, unless
the package is imported or, without `N`, has the path "" of the copies of specs in template data. -/
structure IdentState (N : Prop) (h : Heap) (i : Imports) : Prop where
  inv : Inv i
  names : IdentNames i
  mentioned : ∀ pk, Mentioned h pk → IdentOrKnown i pk ∨ (pk.importPath = [] ∧ ¬ N)

theorem Later.ident {h i h' i'} (a : Later h i h' i') (ht : IdentState (NoSpecData h) h i)
    (hn : NoSpecData h ∨ i'.importsByPath.get [] = none) : IdentState (NoSpecData h) h' i' := by
  have := a.induct (P := fun h1 i1 => (NoSpecData h → NoSpecData h1) ∧
    ((NoSpecData h ∨ i1.importsByPath.get [] = none) → IdentState (NoSpecData h) h1 i1)) ?_ ?_
    ⟨id, fun _ => ht⟩
  · exact this.2 hn
  · rintro h0 i h' i' s ⟨h1, h2⟩
    refine ⟨fun h => (Later.step (.refl _ _) s).noSpecData (h1 h), fun hc => ?_⟩
    have hc' : NoSpecData h ∨ i.importsByPath.get [] = none := hc.imp_right fun hj => by
      by_contra hne
      exact s.ext.imported hne hj
    obtain ⟨hi, h2, h3⟩ := h2 hc'
    refine ⟨s.evolves.inv hi, s.registers.identNames hi (fun pk hm hj => ?_) h2, fun pk hm => ?_⟩
    · rcases h3 pk hm with h4 | ⟨h4, h5⟩
      · exact h4
      · rcases hc with hc | hc
        · exact absurd hc h5
        · exact absurd (h4 ▸ hc) hj
    · rcases s.mentioned hm with hm | hm | ⟨hm, h5⟩
      · exact (h3 pk hm).imp_left s.ext.identOrKnown
      · exact .inl (.inr hm)
      · exact .inr ⟨hm, fun hn => h5 (h1 hn)⟩
  · rintro h0 i files hf ⟨h1, h2⟩
    refine ⟨h1, fun hc => ⟨(h2 hc).inv, (h2 hc).names, fun pk hm => (h2 hc).mentioned pk ?_⟩⟩
    cases hm with
    | @file p f hp =>
      obtain ⟨f', h4, h5⟩ := files_samePackages (fun p => (hf p).symm) p f hp
      rw [← h5]
      exact .file h4
    | value h1 h2 h3 => exact .value h1 h2 h3
    | type h1 h2 => exact .type h1 h2
    | field h1 h2 h3 => exact .field h1 h2 h3
    | embed h1 => exact .embed h1
    | method h1 h2 => exact .method h1 h2
    | func h1 h2 => exact .func h1 h2
    | arg h1 h2 h3 => exact .arg h1 h2 h3
    | templ h1 h2 => exact .templ h1 h2

/-- What import statements call packages. -/
theorem alias_ident {i : Imports} (inv : Inv i) (hn : IdentNames i) : ∀ s ∈ i.importSpecs,
    s.packageAlias = [] ∨ s.packageAlias = b! "." ∨ isIdent s.packageAlias = true := by
  intro s hs
  obtain ⟨d, hd, ha⟩ := (mem_importSpecs inv s).1 hs
  rw [ha]
  split
  · rcases hn _ _ hd with h | ⟨_, h⟩
    · exact .inr (.inr h)
    · exact .inr (.inl h)
  · exact .inl rfl

end Gopoet
