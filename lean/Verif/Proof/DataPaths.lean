import Verif.Proof.IndependentText
import Verif.Proof.SettledSpecs
import Verif.Proof.DataLemmas
/-! Qualification changes the names of the packages in template data, but not their paths. -/

namespace Gopoet
open Imports

/-- Every package in `b` has the path of one in `a`. -/
def PathsFrom (a b : List Package) : Prop := ∀ pk ∈ b, ∃ pk' ∈ a, pk.importPath = pk'.importPath

theorem PathsFrom.refl (a) : PathsFrom a a := fun pk h => ⟨pk, h, rfl⟩
theorem PathsFrom.nil (a) : PathsFrom a [] := fun _ h => nomatch h
theorem PathsFrom.one {p q : Package} (h : q.importPath = p.importPath) : PathsFrom [p] [q] := by
  intro pk hp
  cases List.mem_singleton.1 hp
  exact ⟨p, .head _, h⟩
theorem PathsFrom.append {a b c d} (h1 : PathsFrom a b) (h2 : PathsFrom c d) : PathsFrom (a ++ c) (b ++ d) := by
  intro pk h
  rcases List.mem_append.1 h with h | h
  · obtain ⟨o', h, e⟩ := h1 pk h; exact ⟨o', List.mem_append_left _ h, e⟩
  · obtain ⟨o', h, e⟩ := h2 pk h; exact ⟨o', List.mem_append_right _ h, e⟩
theorem PathsFrom.trans {a b c} (h1 : PathsFrom a b) (h2 : PathsFrom b c) : PathsFrom a c := by
  intro pk h
  obtain ⟨o', h, e⟩ := h2 pk h
  obtain ⟨o, h, e'⟩ := h1 o' h
  exact ⟨o, h, e.trans e'⟩
theorem PathsFrom.of_subset {a b : List Package} (h : ∀ pk ∈ b, pk ∈ a) : PathsFrom a b := fun pk hp => ⟨pk, h pk hp, rfl⟩

theorem requalify_path (n : GoString → GoString) (s : Symbol) : (s.requalify n).package.importPath = s.package.importPath := by
  unfold Symbol.requalify
  split <;> rfl

theorem PathsFrom.symbols (n : GoString → GoString) (l : List Symbol) :
    PathsFrom (l.map (·.package)) ((l.map (·.requalify n)).map (·.package)) := by
  intro pk hp
  obtain ⟨s', h1, rfl⟩ := List.mem_map.1 hp
  obtain ⟨s, h2, rfl⟩ := List.mem_map.1 h1
  exact ⟨_, List.mem_map_of_mem h2, requalify_path n s⟩

theorem ensureImported_path {s s' : Symbol} {i j : Imports} (hq : ensureImported s i = (.ok s', j)) :
    s'.package.importPath = s.package.importPath := by
  rw [(post_ensureImported s i j s' hq).2 j (.refl _)]
  exact requalify_path _ _

theorem qualifyType_paths {t : TypeName} (hv : t.valid = true) {r : TypeName × Bool} {i j : Imports} (hq : qualifyType true t i = (.ok r, j)) :
    PathsFrom (t.symbols.map (·.package)) (r.1.symbols.map (·.package)) := by
  rw [(post_qualifyType hv i j r hq).2 j (.refl _), symbols_mapSymbols]
  exact .symbols _ _

theorem qualifySignature_paths {t : Signature} (hv : t.valid = true) {r : Signature × Bool} {i j : Imports}
    (hq : qualifySignature true t i = (.ok r, j)) : PathsFrom (t.symbols.map (·.package)) (r.1.symbols.map (·.package)) := by
  rw [(post_qualifySignature hv i j r hq).2 j (.refl _), symbols_mapSymbols_sig]
  exact .symbols _ _

theorem qualifyConverted_paths {acc : Accepts} {orig v : TVal} {t : Outcome TypeName} {i j : Imports} {c : Bool}
    (hv : convertedValid t = true) (ho : orig.packages = convertedRefs t)
    (hq : qualifyConverted acc orig t i = (.ok (v, c), j)) : PathsFrom orig.packages v.packages := by
  obtain ⟨t', i1, h1, h2⟩ := IM.bind_eq_ok hq
  obtain ⟨⟨t2, c2⟩, i2, h2, h3⟩ := IM.bind_eq_ok h2
  simp only [IM.lift, Prod.mk.injEq] at h1
  obtain ⟨rfl, rfl⟩ := h1
  dsimp only at h3
  split at h3
  · cases h3
    rw [ho, TVal.packages]
    exact qualifyType_paths hv h2
  · cases h3; exact .refl _

theorem qualifyObject_paths {acc : Accepts} {orig v : TVal} {t : SymbolOrMethodRef} {i j : Imports} {c : Bool}
    (ho : orig.packages = objectRefs (.ok t))
    (hq : qualifyObject acc orig t i = (.ok (v, c), j)) : PathsFrom orig.packages v.packages := by
  cases t with
  | symbol s =>
    obtain ⟨t2, i2, h2, h3⟩ := IM.bind_eq_ok hq
    split at h3
    · cases h3; rw [ho]; exact .one (ensureImported_path h2)
    · cases h3; exact .refl _
  | method s =>
    obtain ⟨t2, i2, h2, h3⟩ := IM.bind_eq_ok hq
    split at h3
    · cases h3; rw [ho]; exact .one (ensureImported_path h2)
    · cases h3; exact .refl _

theorem setMapIndex_paths (k v : TVal) : ∀ m, PathsFrom (packagesEntries m ++ (k.packages ++ v.packages))
    (packagesEntries (setMapIndex m k v))
  | [] => by rw [setMapIndex]; simp only [packagesEntries, List.append_nil, List.nil_append]; exact .refl _
  | (k', v') :: m => by
    rw [setMapIndex]
    split
    · simp only [packagesEntries]
      refine .of_subset fun pk h => ?_
      simp only [List.mem_append] at h ⊢
      rcases h with (h | h) | h
      · exact .inl (.inl (.inl h))
      · exact .inr (.inr h)
      · exact .inl (.inr h)
    · simp only [packagesEntries]
      rw [List.append_assoc]
      exact (PathsFrom.refl _).append (setMapIndex_paths k v m)

theorem foldl_paths : ∀ (es m : List (TVal × TVal)), PathsFrom (packagesEntries m ++ packagesEntries es)
    (packagesEntries (es.foldl (fun m e => setMapIndex m e.1 e.2) m))
  | [], m => by simp only [List.foldl_nil, packagesEntries, List.append_nil]; exact .refl _
  | (k, v) :: es, m => by
    rw [List.foldl_cons]
    refine PathsFrom.trans ?_ (foldl_paths es _)
    simp only [packagesEntries]
    rw [← List.append_assoc]
    exact (setMapIndex_paths k v m).append (.refl _)

mutual
theorem qualifyData_paths (h : Heap) : ∀ (addr : Bool) (v : TVal), v.noSpecs = true → v.validTypes = true →
    ∀ (i j : Imports) (w : TVal) (c : Bool), qualifyData h addr v i = (.ok (w, c), j) → PathsFrom v.packages w.packages
  | addr, .iface acc v => by
    intro hn hv i j w c hq
    by_cases hc : v.isConv = true
    · cases v <;> try simp [TVal.isConv] at hc
      case typeName t => exact qualifyConverted_paths (t := .ok t) hv rfl hq
      case reflectType t => exact qualifyConverted_paths hv rfl hq
      case goType t => exact qualifyConverted_paths hv rfl hq
      case goObject o =>
        obtain ⟨t2, i2, h2, h3⟩ := IM.bind_eq_ok hq
        simp only [IM.lift, Prod.mk.injEq] at h2
        exact qualifyObject_paths (by rw [TVal.packages, h2.1]) h3
      case goPackage g =>
        obtain ⟨t2, i2, h2, h3⟩ := IM.bind_eq_ok hq
        obtain ⟨t3, i3, -, h4⟩ := IM.bind_eq_ok h3
        simp only [IM.lift, packageForGoType, Prod.mk.injEq, Outcome.ok.injEq] at h2
        obtain ⟨rfl, rfl⟩ := h2
        split at h4
        · cases h4; exact .one rfl
        · cases h4; exact .refl _
    · have hc : v.isConv = false := by simpa using hc
      rw [qualifyData_iface _ _ _ hc] at hq
      obtain ⟨⟨v', c'⟩, i1, h1, h2⟩ := IM.bind_eq_ok hq
      cases h2
      rw [packages_iface _ hc, packages_iface _ ((qualifyData_post h false v h1).conv.trans hc)]
      rw [validTypes_iface _ hc] at hv
      exact qualifyData_paths h false v (by simpa [TVal.noSpecs] using hn) hv _ _ _ _ h1
  | _, .package _ => by
    intro _ _ i j w c hq
    obtain ⟨t2, i2, -, h3⟩ := IM.bind_eq_ok hq
    split at h3 <;> cases h3 <;> exact .one rfl
  | _, .symbol _ => by
    intro _ _ i j w c hq; obtain ⟨t2, i2, h2, h3⟩ := IM.bind_eq_ok hq; cases h3; exact .one (ensureImported_path h2)
  | _, .mref _ => by
    intro _ _ i j w c hq; obtain ⟨t2, i2, h2, h3⟩ := IM.bind_eq_ok hq; cases h3; exact .one (ensureImported_path h2)
  | _, .signature _ => by
    intro _ hv i j w c hq; obtain ⟨⟨t2, c2⟩, i2, h2, h3⟩ := IM.bind_eq_ok hq; cases h3
    exact qualifySignature_paths (by simpa [TVal.validTypes] using hv) h2
  | _, .embed e => by
    intro _ _ i j w c hq
    obtain ⟨⟨t2, c2⟩, i2, h2, h3⟩ := IM.bind_eq_ok hq
    cases h3
    obtain ⟨s, i3, h4, h5⟩ := IM.bind_eq_ok h2
    cases h5
    exact .one (ensureImported_path h4)
  | _, .method m => by
    intro _ hv i j w c hq
    obtain ⟨⟨t2, c2⟩, i2, h2, h3⟩ := IM.bind_eq_ok hq
    cases h3
    obtain ⟨s, i3, h4, h5⟩ := IM.bind_eq_ok h2
    cases h5
    exact qualifySignature_paths (by simpa [TVal.validTypes] using hv) h4
  | _, .spec r => by intro hn; simp [TVal.noSpecs] at hn
  | _, .specCopy r m => by intro hn; simp [TVal.noSpecs] at hn
  | _, .imports => by intro _ _ i j w c hq; cases hq; exact .refl _
  | _, .scalar _ => by intro _ _ i j w c hq; cases hq; exact .refl _
  | _, .typeName _ => by intro _ _ i j w c hq; cases hq; exact .refl _
  | _, .reflectType _ => by intro _ _ i j w c hq; cases hq; exact .refl _
  | _, .goType _ => by intro _ _ i j w c hq; cases hq; exact .refl _
  | _, .goObject _ => by intro _ _ i j w c hq; cases hq; exact .refl _
  | _, .goPackage _ => by intro _ _ i j w c hq; cases hq; exact .refl _
  | _, .ptr v => by
    intro hn hv i j w c hq
    rw [qualifyData] at hq
    obtain ⟨⟨v', c'⟩, i1, h1, h2⟩ := IM.bind_eq_ok hq
    cases h2
    have := qualifyData_paths h true v (by simpa [TVal.noSpecs] using hn) (by simpa [TVal.validTypes] using hv) _ _ _ _ h1
    rw [TVal.packages, TVal.packages]
    split
    · exact this.trans (.of_subset fun _ hp => packages_inIface hp)
    · exact this
  | addr, .struct fs => by
    intro hn hv i j w c hq
    rw [qualifyData] at hq
    obtain ⟨⟨v', c'⟩, i1, h1, h2⟩ := IM.bind_eq_ok hq
    cases h2
    exact qualifyDataFields_paths h addr _ _ fs (by simpa [TVal.noSpecs] using hn) (by simpa [TVal.validTypes] using hv) _ _ _ _ h1
  | addr, .array vs => by
    intro hn hv i j w c hq
    rw [qualifyData] at hq
    obtain ⟨⟨v', c'⟩, i1, h1, h2⟩ := IM.bind_eq_ok hq
    cases h2
    exact qualifyDataElems_paths h addr _ _ vs (by simpa [TVal.noSpecs] using hn) (by simpa [TVal.validTypes] using hv) _ _ _ _ h1
  | addr, .slice vs => by
    intro hn hv i j w c hq
    rw [qualifyData] at hq
    obtain ⟨⟨v', c'⟩, i1, h1, h2⟩ := IM.bind_eq_ok hq
    cases h2
    exact qualifyDataElems_paths h true _ _ vs (by simpa [TVal.noSpecs] using hn) (by simpa [TVal.validTypes] using hv) _ _ _ _ h1
  | addr, .map es => by
    intro hn hv i j w c hq
    rw [qualifyData] at hq
    obtain ⟨⟨v', c'⟩, i1, h1, h2⟩ := IM.bind_eq_ok hq
    dsimp only at h2
    split at h2
    · cases h2
      rw [TVal.packages, TVal.packages]
      exact (qualifyDataEntries_paths h es (by simpa [TVal.noSpecs] using hn) (by simpa [TVal.validTypes] using hv) _ _ _ _ h1).trans
        (foldl_paths _ [])
    · cases h2; exact .refl _
theorem qualifyDataFields_paths (h : Heap) : ∀ (addr changed hidden : Bool) (fs : List (Bool × TVal)), noSpecsFields fs = true →
    validTypesFields fs = true → ∀ (i j : Imports) (w : List (Bool × TVal)) (c : Bool),
    qualifyDataFields h addr changed hidden fs i = (.ok (w, c), j) → PathsFrom (packagesFields fs) (packagesFields w)
  | _, _, _, [] => by intro _ _ i j w c hq; cases hq; exact .refl _
  | addr, changed, hidden, (e, v) :: fs => by
    intro hn hv i j w c hq
    simp only [noSpecsFields, Bool.and_eq_true] at hn
    simp only [validTypesFields, Bool.and_eq_true] at hv
    rw [qualifyDataFields] at hq
    split at hq
    · cases hq
    · obtain ⟨⟨v', c'⟩, i1, h1, h2⟩ := IM.bind_eq_ok hq
      dsimp only at h2
      split at h2
      · cases h2
      · obtain ⟨⟨fs', c2⟩, i2, h3, h4⟩ := IM.bind_eq_ok h2
        cases h4
        rw [packagesFields, packagesFields]
        exact (qualifyData_paths h addr v hn.1 hv.1 _ _ _ _ h1).append (qualifyDataFields_paths h addr _ _ fs hn.2 hv.2 _ _ _ _ h3)
theorem qualifyDataElems_paths (h : Heap) : ∀ (addr sliceable changed : Bool) (fs : List TVal), noSpecsElems fs = true →
    validTypesElems fs = true → ∀ (i j : Imports) (w : List TVal) (c : Bool),
    qualifyDataElems h addr sliceable changed fs i = (.ok (w, c), j) → PathsFrom (packagesElems fs) (packagesElems w)
  | _, _, _, [] => by intro _ _ i j w c hq; cases hq; exact .refl _
  | addr, sliceable, changed, v :: fs => by
    intro hn hv i j w c hq
    simp only [noSpecsElems, Bool.and_eq_true] at hn
    simp only [validTypesElems, Bool.and_eq_true] at hv
    rw [qualifyDataElems] at hq
    obtain ⟨⟨v', c'⟩, i1, h1, h2⟩ := IM.bind_eq_ok hq
    dsimp only at h2
    split at h2
    · cases h2
    · obtain ⟨⟨fs', c2⟩, i2, h3, h4⟩ := IM.bind_eq_ok h2
      cases h4
      rw [packagesElems, packagesElems]
      exact (qualifyData_paths h addr v hn.1 hv.1 _ _ _ _ h1).append (qualifyDataElems_paths h addr _ _ fs hn.2 hv.2 _ _ _ _ h3)
theorem qualifyDataEntries_paths (h : Heap) : ∀ (es : List (TVal × TVal)), noSpecsEntries es = true → validTypesEntries es = true →
    ∀ (i j : Imports) (w : List (TVal × TVal)) (c : Bool),
    qualifyDataEntries h es i = (.ok (w, c), j) → PathsFrom (packagesEntries es) (packagesEntries w)
  | [] => by intro _ _ i j w c hq; cases hq; exact .refl _
  | (k, v) :: es => by
    intro hn hv i j w c hq
    simp only [noSpecsEntries, Bool.and_eq_true] at hn
    simp only [validTypesEntries, Bool.and_eq_true] at hv
    rw [qualifyDataEntries] at hq
    obtain ⟨⟨k', c'⟩, i1, h1, h2⟩ := IM.bind_eq_ok hq
    obtain ⟨⟨v', c''⟩, i1', h1', h2⟩ := IM.bind_eq_ok h2
    dsimp only at h2
    split at h2
    · cases h2
    · obtain ⟨⟨fs', c2⟩, i2, h3, h4⟩ := IM.bind_eq_ok h2
      cases h4
      rw [packagesEntries, packagesEntries]
      exact ((qualifyData_paths h false k hn.1.1 hv.1.1 _ _ _ _ h1).append (qualifyData_paths h false v hn.1.2 hv.1.2 _ _ _ _ h1')).append
        (qualifyDataEntries_paths h es hn.2 hv.2 _ _ _ _ h3)
end

/-- The packages in data for a template have the paths of those before, and still no specs are in it. -/
theorem qualifyTemplateData_paths {h : Heap} {v w : TVal} {i j : Imports} (hn : v.noSpecs = true)
    (hv : (TVal.iface acceptsAll v).validTypes = true) (hq : qualifyTemplateData h v i = (.ok w, j)) :
    PathsFrom (TVal.iface acceptsAll v).packages (TVal.iface acceptsAll w).packages ∧ w.noSpecs = true := by
  obtain ⟨⟨r, c⟩, i1, h1, h2⟩ := IM.bind_eq_ok hq
  have hn' : (TVal.iface acceptsAll v).noSpecs = true := by simpa [TVal.noSpecs] using hn
  have k1 := qualifyData_paths h true _ hn' hv _ _ _ _ h1
  have k2 := (qualifyData_post h true _ h1).noSpecs hn'
  obtain ⟨w', hw⟩ := qualifyData_iface_shape h1
  dsimp only at hw h2
  subst hw
  obtain ⟨e1, e2⟩ := pure_eq_ok h2
  subst e1 e2
  exact ⟨k1, by simpa [TVal.noSpecs] using k2⟩

end Gopoet
