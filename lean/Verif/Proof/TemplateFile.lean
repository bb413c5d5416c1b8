import Verif.Proof.VisitedLemmas
import Verif.Props.TemplateText
/-! Template data in the course of a qualification pass. -/

namespace Gopoet
open Imports

/-! ### What the qualified data depends on -/

/-- Both give the same names to the packages. -/
def NamesAgree (n n' : GoString → GoString) (l : List Package) : Prop := ∀ p ∈ l, n p.importPath = n' p.importPath

theorem NamesAgree.left {n n' : GoString → GoString} {l l' : List Package} (h : NamesAgree n n' (l ++ l')) : NamesAgree n n' l :=
  fun p hp => h p (by simp [hp])

theorem NamesAgree.right {n n' : GoString → GoString} {l l' : List Package} (h : NamesAgree n n' (l ++ l')) : NamesAgree n n' l' :=
  fun p hp => h p (by simp [hp])

theorem symbol_requalify_congr {n n' : GoString → GoString} {l : List Symbol} (h : NamesAgree n n' (packagesOf l)) :
    ∀ s ∈ l, s.requalify n = s.requalify n' := by
  intro s hs
  by_cases hb : s.package = ⟨[], []⟩
  · simp [Symbol.requalify, hb]
  · have := h s.package (by simp only [packagesOf, List.mem_filter, List.mem_map]; exact ⟨⟨s, hs, rfl⟩, by simpa using hb⟩)
    simp [Symbol.requalify, hb, this]

theorem converted_congr {n n' : GoString → GoString} (acc : Accepts) (v : TVal) {t : Outcome TypeName}
    (h : NamesAgree n n' (convertedMentions t)) : requalifyConverted n acc v t = requalifyConverted n' acc v t := by
  cases t with
  | ok t =>
    have hs := symbol_requalify_congr (l := t.symbols) h
    have h1 : t.symbols.any (fun s => decide (s.requalify n ≠ s)) = t.symbols.any (fun s => decide (s.requalify n' ≠ s)) := by
      rw [Bool.eq_iff_iff]
      simp only [List.any_eq_true, decide_eq_true_eq]
      exact ⟨fun ⟨s, h1, h2⟩ => ⟨s, h1, hs s h1 ▸ h2⟩, fun ⟨s, h1, h2⟩ => ⟨s, h1, hs s h1 ▸ h2⟩⟩
    rw [requalifyConverted, requalifyConverted, h1, mapSymbols_congr t hs]
  | panic => rfl
  | hang => rfl

theorem object_congr {n n' : GoString → GoString} (acc : Accepts) (v : TVal) {t : Outcome SymbolOrMethodRef}
    (h : NamesAgree n n' (objectMentions t)) : requalifyObject n acc v t = requalifyObject n' acc v t := by
  cases t with
  | ok t =>
    cases t with
    | symbol s => rw [requalifyObject, requalifyObject, symbol_requalify_congr (l := [s]) h s (by simp)]
    | method m => rw [requalifyObject, requalifyObject, symbol_requalify_congr (l := [m.type]) h m.type (by simp)]
  | panic => rfl
  | hang => rfl

section
variable {h h' : Heap} {n n' : GoString → GoString}

mutual
theorem requalify_congr (hp : ∀ r : SpecRef, r.package h' = r.package h) : ∀ v : TVal, NamesAgree n n' (v.mentions h) →
    v.requalify h n = v.requalify h' n'
  | .iface acc v, hn => by
    cases hc : v.isConv with
    | true =>
      cases v <;> simp only [TVal.isConv, Bool.false_eq_true] at hc <;> rw [TVal.requalify, TVal.requalify]
      case typeName t => exact converted_congr _ _ (t := .ok t) hn
      case reflectType t => exact converted_congr _ _ hn
      case goType t => exact converted_congr _ _ hn
      case goObject t => exact object_congr _ _ hn
      case goPackage g =>
        have := hn ⟨g.path, g.name⟩ (by simp [TVal.mentions])
        dsimp only at this
        rw [this]
    | false =>
      rw [mentions_iface h acc hc] at hn
      rw [requalify_iface h n acc hc, requalify_iface h' n' acc hc, requalify_congr hp v hn]
  | .spec r, hn => by
    rw [TVal.requalify, TVal.requalify, hp]
    cases hr : r.package h with
    | none => rfl
    | some p =>
      have := hn p (by simp [TVal.mentions, hr])
      dsimp only
      rw [this]
  | .package p, hn => by
    have := hn p (by simp [TVal.mentions])
    simp only [TVal.requalify, Package.requalify, this]
  | .symbol s, hn => by simp only [TVal.requalify, symbol_requalify_congr (l := [s]) hn s (by simp)]
  | .mref m, hn => by simp only [TVal.requalify, symbol_requalify_congr (l := [m.type]) hn m.type (by simp)]
  | .signature s, hn => by simp only [TVal.requalify, mapSymbols_congr_sig s (symbol_requalify_congr hn)]
  | .specCopy r x, hn => by
    have := hn ⟨[], x⟩ (by simp [TVal.mentions])
    simp only [TVal.requalify, this]
  | .embed e, hn => by simp only [TVal.requalify, symbol_requalify_congr (l := [e.type]) hn e.type (by simp)]
  | .method m, hn => by simp only [TVal.requalify, mapSymbols_congr_sig m.signature (symbol_requalify_congr hn)]
  | .ptr v, hn => by rw [TVal.requalify, TVal.requalify, requalify_congr hp v hn]
  | .struct fs, hn => by rw [TVal.requalify, TVal.requalify, requalifyFields_congr hp fs hn]
  | .array vs, hn => by rw [TVal.requalify, TVal.requalify, requalifyElems_congr hp vs hn]
  | .slice vs, hn => by rw [TVal.requalify, TVal.requalify, requalifyElems_congr hp vs hn]
  | .map es, hn => by rw [TVal.requalify, TVal.requalify, requalifyEntries_congr hp es hn]
  | .scalar _, _ | .imports, _ | .typeName _, _ | .reflectType _, _ | .goType _, _ | .goObject _, _ | .goPackage _, _ => by
    rw [TVal.requalify, TVal.requalify] <;> simp
theorem requalifyFields_congr (hp : ∀ r : SpecRef, r.package h' = r.package h) : ∀ fs : List (Bool × TVal),
    NamesAgree n n' (mentionsFields h fs) → requalifyFields h n fs = requalifyFields h' n' fs
  | [], _ => rfl
  | (_, v) :: fs, hn => by
    rw [requalifyFields, requalifyFields, requalify_congr hp v hn.left, requalifyFields_congr hp fs hn.right]
theorem requalifyElems_congr (hp : ∀ r : SpecRef, r.package h' = r.package h) : ∀ vs : List TVal,
    NamesAgree n n' (mentionsElems h vs) → requalifyElems h n vs = requalifyElems h' n' vs
  | [], _ => rfl
  | v :: vs, hn => by
    rw [requalifyElems, requalifyElems, requalify_congr hp v hn.left, requalifyElems_congr hp vs hn.right]
theorem requalifyEntries_congr (hp : ∀ r : SpecRef, r.package h' = r.package h) : ∀ es : List (TVal × TVal),
    NamesAgree n n' (mentionsEntries h es) → requalifyEntries h n es = requalifyEntries h' n' es
  | [], _ => rfl
  | (k, v) :: es, hn => by
    rw [requalifyEntries, requalifyEntries, requalify_congr hp k hn.left, requalify_congr hp v hn.right.left,
      requalifyEntries_congr hp es hn.right.right]
end

mutual
theorem preserved_congr (hp : ∀ r : SpecRef, r.package h' = r.package h) : ∀ v : TVal,
    NamesAgree n n' ((TVal.iface acceptsAll v).mentions h) → (v.Preserved h n ↔ v.Preserved h' n')
  | .iface acc v, hn => by
    rw [TVal.Preserved, TVal.Preserved]
    rw [mentions_iface h acceptsAll rfl] at hn
    cases hc : v.isConv with
    | false =>
      rw [mentions_iface h acc hc] at hn
      exact preserved_congr hp v (by rw [mentions_iface h acceptsAll hc]; exact hn)
    | true => cases v <;> simp [TVal.isConv] at hc <;> simp [TVal.Preserved]
  | .ptr v, hn => by
    rw [mentions_iface h acceptsAll rfl, TVal.mentions] at hn
    rw [TVal.Preserved, TVal.Preserved, requalify_congr hp v hn]
    refine and_congr_left fun _ => ?_
    cases hc : v.isConv with
    | false => exact preserved_congr hp v (by rw [mentions_iface h acceptsAll hc]; exact hn)
    | true => cases v <;> simp [TVal.isConv] at hc <;> simp [TVal.Preserved]
  | .struct fs, hn => by
    rw [mentions_iface h acceptsAll rfl, TVal.mentions] at hn
    rw [TVal.Preserved, TVal.Preserved]
    exact preservedFields_congr hp fs hn
  | .array vs, hn => by
    rw [mentions_iface h acceptsAll rfl, TVal.mentions] at hn
    rw [TVal.Preserved, TVal.Preserved]
    exact preservedElems_congr hp vs hn
  | .slice vs, hn => by
    rw [mentions_iface h acceptsAll rfl, TVal.mentions] at hn
    rw [TVal.Preserved, TVal.Preserved]
    exact preservedElems_congr hp vs hn
  | .map es, hn => by
    rw [mentions_iface h acceptsAll rfl, TVal.mentions] at hn
    rw [TVal.Preserved, TVal.Preserved, requalifyEntries_congr hp es hn, preservedEntries_congr hp es hn]
  | .package _, _ | .symbol _, _ | .mref _, _ | .signature _, _ | .spec _, _ | .specCopy _ _, _ | .embed _, _ | .method _, _
  | .scalar _, _ | .imports, _ | .typeName _, _ | .reflectType _, _ | .goType _, _ | .goObject _, _ | .goPackage _, _ => by
    simp [TVal.Preserved]
theorem preservedFields_congr (hp : ∀ r : SpecRef, r.package h' = r.package h) : ∀ fs : List (Bool × TVal),
    NamesAgree n n' (mentionsFields h fs) → (PreservedFields h n fs ↔ PreservedFields h' n' fs)
  | [], _ => Iff.rfl
  | (_, v) :: fs, hn => by
    rw [PreservedFields, PreservedFields, preservedFields_congr hp fs hn.right]
    refine and_congr_left fun _ => ?_
    cases hc : v.isConv with
    | false => exact preserved_congr hp v (by rw [mentions_iface h acceptsAll hc]; exact hn.left)
    | true => cases v <;> simp [TVal.isConv] at hc <;> simp [TVal.Preserved]
theorem preservedElems_congr (hp : ∀ r : SpecRef, r.package h' = r.package h) : ∀ vs : List TVal,
    NamesAgree n n' (mentionsElems h vs) → (PreservedElems h n vs ↔ PreservedElems h' n' vs)
  | [], _ => Iff.rfl
  | v :: vs, hn => by
    rw [PreservedElems, PreservedElems, preservedElems_congr hp vs hn.right]
    refine and_congr_left fun _ => ?_
    cases hc : v.isConv with
    | false => exact preserved_congr hp v (by rw [mentions_iface h acceptsAll hc]; exact hn.left)
    | true => cases v <;> simp [TVal.isConv] at hc <;> simp [TVal.Preserved]
theorem preservedEntries_congr (hp : ∀ r : SpecRef, r.package h' = r.package h) : ∀ es : List (TVal × TVal),
    NamesAgree n n' (mentionsEntries h es) → (PreservedEntries h n es ↔ PreservedEntries h' n' es)
  | [], _ => Iff.rfl
  | (k, v) :: es, hn => by
    rw [PreservedEntries, PreservedEntries, preservedEntries_congr hp es hn.right.right]
    refine and_congr ?_ (and_congr_left fun _ => ?_)
    · cases hc : k.isConv with
      | false => exact preserved_congr hp k (by rw [mentions_iface h acceptsAll hc]; exact hn.left)
      | true => cases k <;> simp [TVal.isConv] at hc <;> simp [TVal.Preserved]
    · cases hc : v.isConv with
      | false => exact preserved_congr hp v (by rw [mentions_iface h acceptsAll hc]; exact hn.right.left)
      | true => cases v <;> simp [TVal.isConv] at hc <;> simp [TVal.Preserved]
end
end

/-! ### Copies of specs are imported with an empty path -/

mutual
theorem copy_mentions (h : Heap) {x : GoString} : ∀ v : TVal, x ∈ v.copyNames → ⟨[], x⟩ ∈ v.mentions h
  | .iface acc v, hx => by
    rw [TVal.copyNames] at hx
    cases hc : v.isConv with
    | true => cases v <;> simp [TVal.isConv] at hc <;> simp [TVal.copyNames] at hx
    | false => rw [mentions_iface h acc hc]; exact copy_mentions h v hx
  | .specCopy r y, hx => by simpa [TVal.copyNames, TVal.mentions] using hx
  | .ptr v, hx => by rw [TVal.copyNames] at hx; exact copy_mentions h v hx
  | .struct fs, hx => by rw [TVal.copyNames] at hx; exact copyFields_mentions h fs hx
  | .array vs, hx => by rw [TVal.copyNames] at hx; exact copyElems_mentions h vs hx
  | .slice vs, hx => by rw [TVal.copyNames] at hx; exact copyElems_mentions h vs hx
  | .map es, hx => by rw [TVal.copyNames] at hx; exact copyEntries_mentions h es hx
  | .package _, hx | .symbol _, hx | .mref _, hx | .signature _, hx | .spec _, hx | .embed _, hx | .method _, hx
  | .scalar _, hx | .imports, hx | .typeName _, hx | .reflectType _, hx | .goType _, hx | .goObject _, hx | .goPackage _, hx => by
    simp [TVal.copyNames] at hx
theorem copyFields_mentions (h : Heap) {x : GoString} : ∀ fs : List (Bool × TVal), x ∈ copyNamesFields fs →
    ⟨[], x⟩ ∈ mentionsFields h fs
  | [], hx => by simp [copyNamesFields] at hx
  | (_, v) :: fs, hx => by
    rw [copyNamesFields, List.mem_append] at hx
    rw [mentionsFields, List.mem_append]
    exact hx.imp (copy_mentions h v) (copyFields_mentions h fs)
theorem copyElems_mentions (h : Heap) {x : GoString} : ∀ vs : List TVal, x ∈ copyNamesElems vs →
    ⟨[], x⟩ ∈ mentionsElems h vs
  | [], hx => by simp [copyNamesElems] at hx
  | v :: vs, hx => by
    rw [copyNamesElems, List.mem_append] at hx
    rw [mentionsElems, List.mem_append]
    exact hx.imp (copy_mentions h v) (copyElems_mentions h vs)
theorem copyEntries_mentions (h : Heap) {x : GoString} : ∀ es : List (TVal × TVal), x ∈ copyNamesEntries es →
    ⟨[], x⟩ ∈ mentionsEntries h es
  | [], hx => by simp [copyNamesEntries] at hx
  | (k, v) :: es, hx => by
    rw [copyNamesEntries, List.append_assoc, List.mem_append, List.mem_append] at hx
    rw [mentionsEntries, List.mem_append, List.mem_append]
    exact hx.imp (copy_mentions h k) (Or.imp (copy_mentions h v) (copyEntries_mentions h es))
end

/-- There are no specs in the data, or no copy of a spec is ever qualified again. -/
def NoCopyAgain (v : TVal) (k : Imports) : Prop := v.noSpecs = true ∨ ([] ∉ k.importedPaths ∧ k.pkgPath ≠ [])

/-! ### The course of the pass -/

/-- The data was qualified, once. -/
structure DataFrom (h0 : Heap) (v : TVal) (h : Heap) (i : Imports) (d : TVal) : Prop where
  done : TemplDone h i d
  from_ : ∃ g i0 j, SameNames h0 g ∧ Ext j i ∧ qualifyTemplateData g v i0 = (.ok d, j)

theorem DataFrom.later {h0 : Heap} {v d : TVal} {h i h' i'} (a : DataFrom h0 v h i d) (s : SpecsStay h h') (e : Ext i i') :
    DataFrom h0 v h' i' d := by
  obtain ⟨h1, g, i0, j, h2, h3, h4⟩ := a
  exact ⟨h1.later s e, g, i0, j, h2, h3.trans e, h4⟩

/-- Qualifying once more changes nothing. -/
theorem DataFrom.again {h0 : Heap} {v d d' : TVal} {h i j k} (a : DataFrom h0 v h i d) (hc : NoCopyAgain v k) (e : Ext j k)
    (hq : qualifyTemplateData h d i = (.ok d', j)) : d' = d := by
  have hcn : CopiesNamed i d.copyNames := by
    rcases hc with hc | ⟨hc1, hc2⟩
    · obtain ⟨g, i0, j0, -, -, h4⟩ := a.from_
      rw [copyNames_of_noSpecs ((qualifyTemplateData_done h4).2 hc)]
      intro n hn; cases hn
    · intro x hx
      have h1 := (mentions_hasName hq).2 ⟨[], x⟩ (copy_mentions h _ (by simpa [TVal.copyNames] using hx))
      rcases h1.later e with h1 | h1
      · exact absurd h1.symm hc2
      · exact absurd ((mem_importPaths _ _).2 h1) hc1
  rw [a.done.1 h i (.refl _) (.refl _) hcn] at hq
  simp only [Prod.mk.injEq, Outcome.ok.injEq] at hq
  exact hq.1.symm

theorem sameNames_file {h : Heap} {files} (hf : ∀ p, (files p).map (fun f : GoFile => f.package) = (h.files p).map (·.package)) :
    SameNames h { h with files } :=
  ⟨hf, fun _ => rfl, fun _ => rfl, fun _ => rfl, fun _ => rfl, rfl, rfl, rfl⟩

theorem SameNames.trans {h h' h'' : Heap} (a : SameNames h h') (b : SameNames h' h'') : SameNames h h'' :=
  ⟨fun p => (b.files p).trans (a.files p), fun p => (b.types p).trans (a.types p), fun p => (b.methods p).trans (a.methods p),
    fun p => (b.funcs p).trans (a.funcs p), fun p => (b.values p).trans (a.values p), b.valueDecls.trans a.valueDecls,
    b.typeDecls.trans a.typeDecls, b.blocks.trans a.blocks⟩

/-- What becomes of the data of a template. -/
theorem templ_later {h i h' i'} (s : Later h i h' i') {q : Ptr} {n : Nat} {v : TVal} (hq : h.templs q = some ⟨n, v⟩)
    (hc : NoCopyAgain v i') : ∃ d, h'.templs q = some ⟨n, d⟩ ∧ (d = v ∨ DataFrom h v h' i' d) := by
  have key := (s.induct (P := fun g k => SameNames h g ∧ (Ext k i' → ∃ d, g.templs q = some ⟨n, d⟩ ∧ (d = v ∨ DataFrom h v g k d)))
    ?_ ?_ ⟨.refl _, fun _ => ⟨v, hq, .inl rfl⟩⟩).2
  · exact key (.refl _)
  · rintro g k g' k' s ⟨hn, hP⟩
    refine ⟨hn.trans s.sameNames, fun he => ?_⟩
    obtain ⟨d, h1, h2⟩ := hP (s.ext.trans he)
    have keep : d = v ∨ DataFrom h v g' k' d := h2.imp id fun h => h.later s.specsStay s.ext
    cases s with
    | @templ p t d' _ g1 g2 =>
      by_cases e : q = p
      · subst e
        rw [h1] at g1
        cases g1
        refine ⟨d', upd_same .., ?_⟩
        have hst := (QStep.templ h1 g2).specsStay
        rcases h2 with rfl | h2
        · exact .inr (.later ⟨(qualifyTemplateData_done g2).1, g, k, k', hn, .refl _, g2⟩ hst (.refl _))
        · rw [h2.again hc he g2] at *
          exact keep
      · exact ⟨d, (upd_ne _ _ e).trans h1, keep⟩
    | _ => exact ⟨d, h1, keep⟩
  · rintro g k files hf ⟨hn, hP⟩
    refine ⟨hn.trans (sameNames_file hf), fun he => ?_⟩
    obtain ⟨d, h1, h2⟩ := hP he
    exact ⟨d, h1, h2.imp id fun h => h.later (Later.file (.refl _ k) hf).specsStay (.refl _)⟩

end Gopoet
