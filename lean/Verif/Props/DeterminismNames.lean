import Verif.Props.Determinism
import Verif.Props.Renamed
/-! C43 when no two packages have the same name: what has to be known is known from the file before it is written. -/

namespace Gopoet
open Imports

/-- A package in the data of a template that the file does not import before it is written. -/
def InTemplates (h : Heap) (f : GoFile) (pk : Package) : Prop :=
  (∃ q t, h.templs q = some t ∧ pk ∈ (TVal.iface acceptsAll t.data).mentions h) ∧
    pk.importPath ≠ f.imports.pkgPath ∧ pk.importPath ∉ f.imports.importedPaths

/-- C43: a file for which no two packages have the same name (`NoNameTwice`), and in which every package has one name,
has the same text whatever the order of map entries is. -/
theorem C43_named_partial {env : Env} (hb : OrderBlind env) {fuel : Nat} {p : Ptr} {h h1 h' : Heap} {f f' : GoFile}
    {text : GoString} (hs : SameButOrder h h1) (hf : h.files p = some f)
    (hr : Reachable f.imports) (hm : ∀ f1, h1.files p = some f1 → f1.imports.Maps)
    (hd : ∀ q t, h.templs q = some t → PlainData t.data) (hn : NoNameTwice h f)
    (hone : ∀ a b, NewlyVisited h f a ∨ InTemplates h f a → NewlyVisited h f b ∨ InTemplates h f b →
      a.importPath = b.importPath → a.name = b.name)
    (hrender : renderFile env fuel p h = (.ok text, h')) (hf' : h'.files p = some f') (h0 : [] ∉ f'.imports.importedPaths) :
    (renderFile env fuel p h1).1 = .ok text := by
  classical
  have hnamed : NamedOnce h f := by
    intro a b ha hb hp
    have := hone a b (.inl ha) (.inl hb) hp
    rw [Package.ownName, Package.ownName, this, hp]
  have hkept := (C70_kept_iff hr hf hrender hf' h0).2 ⟨hn, hnamed⟩
  obtain ⟨he, -⟩ := qualifyFile_adds (qualifyFile_of_renderFile hrender) hf hf'
  have inv' := he.inv hr.inv
  let nm : GoString → Option GoString := fun path =>
    if hx : ∃ pk, InTemplates h f pk ∧ pk.importPath = path then some hx.choose.name else none
  refine C43_file_partial hb (nm := nm) hs hf hr hm hd ?_ hrender hf' ?_
  · intro q t ht pk hpk
    by_cases h1 : pk.importPath = f.imports.pkgPath
    · exact .inl h1
    by_cases h2 : pk.importPath ∈ f.imports.importedPaths
    · exact .inr (.inl h2)
    refine .inr (.inr ?_)
    have hin : InTemplates h f pk := ⟨⟨q, t, ht, hpk⟩, h1, h2⟩
    have hx : ∃ pk', InTemplates h f pk' ∧ pk'.importPath = pk.importPath := ⟨pk, hin, rfl⟩
    simp only [nm, dif_pos hx, Option.some.injEq]
    exact hone _ _ (.inr hx.choose_spec.1) (.inr hin) hx.choose_spec.2
  · intro path d n hnm hg
    by_cases hx : ∃ pk, InTemplates h f pk ∧ pk.importPath = path
    · simp only [nm, dif_pos hx, Option.some.injEq] at hnm
      obtain ⟨h2, h3⟩ := hx.choose_spec
      have hmem := mem_importedPaths_iff.2 ⟨d, hg⟩
      have hne : path ≠ [] := by rintro rfl; exact h0 hmem
      have hnew : path ∉ f.imports.importedPaths := h3 ▸ h2.2.2
      rcases (C62_imports_iff hf hrender hf' hne).1 hmem with h4 | ⟨h4, e, h5, pk, h6, h7⟩
      · exact absurd h4 hnew
      · have hv : NewlyVisited h f pk := ⟨⟨e, h5, h6⟩, h7 ▸ hne, h7 ▸ h4, h7 ▸ hnew⟩
        have h8 := hkept pk hv
        rw [h7, qualifierOf_get inv' hg] at h8
        have h9 := hone _ _ (.inr h2) (.inl hv) (h3.trans h7.symm)
        rw [h8, ← hnm, h9, ← h7]
        rfl
    · simp only [nm, dif_neg hx] at hnm
      cases hnm

/-- The packages in the file of `exNoClash`. -/
theorem exNoClash_packages {f : GoFile} (hf : (exMapFile exNoClash).files 0 = some f) {pk : Package}
    (hv : NewlyVisited (exMapFile exNoClash) f pk ∨ InTemplates (exMapFile exNoClash) f pk) :
    pk = ⟨b! "y/q", b! "q"⟩ ∨ pk = ⟨b! "x/a", b! "a"⟩ ∨ pk = ⟨b! "y/b", b! "b"⟩ := by
  have hm : (TVal.iface acceptsAll (.map exNoClash)).mentions (exMapFile exNoClash) = [⟨b! "x/a", b! "a"⟩, ⟨b! "y/b", b! "b"⟩] := rfl
  cases hf
  rcases hv with ⟨⟨e, h1, h2⟩, -⟩ | ⟨⟨q, t, h1, h2⟩, -⟩
  · simp only [List.mem_singleton] at h1
    subst h1
    cases h2 with
    | funcSig h1 h2 => cases h1; simp [Signature.symbols, symbolsArgs] at h2
    | funcCode h1 h2 h3 =>
      cases h1
      simp only [List.mem_cons, List.not_mem_nil, or_false] at h2
      rcases h2 with rfl | rfl
      · cases h3 with
        | line h4 h5 h6 =>
          cases h4
          simp only [List.mem_singleton] at h5
          subst h5
          cases h6 with
          | ref h7 h8 => cases h7; simp [Reference.packages] at h8; simp [h8]
      · cases h3 with
        | templ h4 h5 =>
          cases h4
          rw [hm] at h5
          simp only [List.mem_cons, List.not_mem_nil, or_false] at h5
          exact .inr h5
  · simp only [exMapFile] at h1
    split at h1
    · cases h1
      rw [hm] at h2
      simp only [List.mem_cons, List.not_mem_nil, or_false] at h2
      exact .inr h2
    · cases h1

/-- by `C43_named_partial` -/
example {es : List (TVal × TVal)} (hp : exNoClash.Perm es) : (renderFile exBlindEnv 3 0 (exMapFile es)).1 = .ok exNoClashText := by
  have h1 : (renderFile exBlindEnv 3 0 (exMapFile exNoClash)).1 = .ok exNoClashText := by decide
  refine C43_named_partial exBlindEnv_orderBlind (exMapFile_same hp) rfl (exMapFile_reachable (es := exNoClash) (q := 0) rfl)
    (fun _ h => exMapFile_maps h) (fun _ _ h => exMapFile_plain ⟨rfl, rfl, rfl, rfl, rfl, rfl⟩ h) ⟨?_, ?_⟩ ?_
    (h' := (renderFile exBlindEnv 3 0 (exMapFile exNoClash)).2) (by rw [← h1]) rfl (by decide)
  · intro a b ha hb
    rcases exNoClash_packages rfl (.inl ha) with rfl | rfl | rfl <;> rcases exNoClash_packages rfl (.inl hb) with rfl | rfl | rfl <;> decide
  · intro a ha y hy
    simp [Imports.importedPaths, Imports.importSpecs, importSpecsInOrder, newImportsFor, sortSpecs] at hy
  · intro a b ha hb
    rcases exNoClash_packages rfl ha with rfl | rfl | rfl <;> rcases exNoClash_packages rfl hb with rfl | rfl | rfl <;> decide

end Gopoet
