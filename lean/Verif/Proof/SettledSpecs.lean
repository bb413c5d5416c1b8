import Verif.Proof.SettledData
/-!
# The packages and the specs in template data after it is qualified
-/

namespace Gopoet
open Imports

theorem packages_iface (acc : Accepts) {v : TVal} (hv : v.isConv = false) :
    (TVal.iface acc v).packages = v.packages := by
  cases v <;> first | (simp [TVal.isConv] at hv; done) | (rw [TVal.packages] <;> simp)

theorem packages_inIface {v : TVal} {pk : Package} (hp : pk ∈ v.inIface.packages) : pk ∈ v.packages := by
  cases v <;> try exact hp
  rename_i acc w
  by_cases hw : w.isConv = true
  · cases w <;> simp only [TVal.isConv, Bool.false_eq_true] at hw <;>
      (exfalso; rw [TVal.inIface, TVal.packages] at hp <;> cases hp)
  · rw [packages_iface _ (by simpa using hw)]
    exact hp

theorem mem_packagesEntries {pk : Package} : ∀ {es : List (TVal × TVal)},
    pk ∈ packagesEntries es ↔ ∃ e ∈ es, pk ∈ e.1.packages ∨ pk ∈ e.2.packages
  | [] => by simp [packagesEntries]
  | (k, v) :: es => by simp [packagesEntries, mem_packagesEntries (es := es), or_assoc]

/-! ### Data without specs -/

mutual
theorem shownSpecs_of_noSpecs : ∀ (v : TVal), v.noSpecs = true → v.shownSpecs = []
  | .iface _ v, hs => by rw [TVal.shownSpecs]; exact shownSpecs_of_noSpecs v (by simpa [TVal.noSpecs] using hs)
  | .spec _, hs => by simp [TVal.noSpecs] at hs
  | .specCopy _ _, hs => by simp [TVal.noSpecs] at hs
  | .ptr v, hs => by rw [TVal.shownSpecs]; exact shownSpecs_of_noSpecs v (by simpa [TVal.noSpecs] using hs)
  | .struct fs, hs => by
    rw [TVal.shownSpecs]; exact shownSpecsFields_of_noSpecs fs (by simpa [TVal.noSpecs] using hs)
  | .array vs, hs => by
    rw [TVal.shownSpecs]; exact shownSpecsElems_of_noSpecs vs (by simpa [TVal.noSpecs] using hs)
  | .slice vs, hs => by
    rw [TVal.shownSpecs]; exact shownSpecsElems_of_noSpecs vs (by simpa [TVal.noSpecs] using hs)
  | .map es, hs => by
    rw [TVal.shownSpecs]; exact shownSpecsEntries_of_noSpecs es (by simpa [TVal.noSpecs] using hs)
  | .package _, _ | .symbol _, _ | .mref _, _ | .signature _, _ | .embed _, _ | .method _, _ | .scalar _, _
  | .imports, _ | .typeName _, _ | .reflectType _, _ | .goType _, _ | .goObject _, _ | .goPackage _, _ => by
    simp [TVal.shownSpecs]
theorem shownSpecsFields_of_noSpecs : ∀ fs : List (Bool × TVal), noSpecsFields fs = true → shownSpecsFields fs = []
  | [], _ => rfl
  | (_, v) :: fs, hs => by
    simp only [noSpecsFields, Bool.and_eq_true] at hs
    simp [shownSpecsFields, shownSpecs_of_noSpecs v hs.1, shownSpecsFields_of_noSpecs fs hs.2]
theorem shownSpecsElems_of_noSpecs : ∀ vs : List TVal, noSpecsElems vs = true → shownSpecsElems vs = []
  | [], _ => rfl
  | v :: vs, hs => by
    simp only [noSpecsElems, Bool.and_eq_true] at hs
    simp [shownSpecsElems, shownSpecs_of_noSpecs v hs.1, shownSpecsElems_of_noSpecs vs hs.2]
theorem shownSpecsEntries_of_noSpecs : ∀ es : List (TVal × TVal), noSpecsEntries es = true →
    shownSpecsEntries es = []
  | [], _ => rfl
  | (k, v) :: es, hs => by
    simp only [noSpecsEntries, Bool.and_eq_true] at hs
    simp [shownSpecsEntries, shownSpecs_of_noSpecs k hs.1.1, shownSpecs_of_noSpecs v hs.1.2,
      shownSpecsEntries_of_noSpecs es hs.2]
end

mutual
theorem mem_copyNames {n : GoString} : ∀ (v : TVal), n ∈ v.copyNames ↔ ∃ r, (r, some n) ∈ v.shownSpecs
  | .iface _ v => by rw [TVal.copyNames, TVal.shownSpecs]; exact mem_copyNames v
  | .spec _ => by simp [TVal.copyNames, TVal.shownSpecs]
  | .specCopy _ _ => by simp [TVal.copyNames, TVal.shownSpecs]
  | .ptr v => by rw [TVal.copyNames, TVal.shownSpecs]; exact mem_copyNames v
  | .struct fs => by rw [TVal.copyNames, TVal.shownSpecs]; exact mem_copyNamesFields fs
  | .array vs => by rw [TVal.copyNames, TVal.shownSpecs]; exact mem_copyNamesElems vs
  | .slice vs => by rw [TVal.copyNames, TVal.shownSpecs]; exact mem_copyNamesElems vs
  | .map es => by rw [TVal.copyNames, TVal.shownSpecs]; exact mem_copyNamesEntries es
  | .package _ | .symbol _ | .mref _ | .signature _ | .embed _ | .method _ | .scalar _
  | .imports | .typeName _ | .reflectType _ | .goType _ | .goObject _ | .goPackage _ => by
    simp [TVal.copyNames, TVal.shownSpecs]
theorem mem_copyNamesFields {n : GoString} : ∀ fs : List (Bool × TVal),
    n ∈ copyNamesFields fs ↔ ∃ r, (r, some n) ∈ shownSpecsFields fs
  | [] => by simp [copyNamesFields, shownSpecsFields]
  | (_, v) :: fs => by
    simp [copyNamesFields, shownSpecsFields, mem_copyNames v, mem_copyNamesFields fs, exists_or]
theorem mem_copyNamesElems {n : GoString} : ∀ vs : List TVal,
    n ∈ copyNamesElems vs ↔ ∃ r, (r, some n) ∈ shownSpecsElems vs
  | [] => by simp [copyNamesElems, shownSpecsElems]
  | v :: fs => by
    simp [copyNamesElems, shownSpecsElems, mem_copyNames v, mem_copyNamesElems fs, exists_or]
theorem mem_copyNamesEntries {n : GoString} : ∀ es : List (TVal × TVal),
    n ∈ copyNamesEntries es ↔ ∃ r, (r, some n) ∈ shownSpecsEntries es
  | [] => by simp [copyNamesEntries, shownSpecsEntries]
  | (k, v) :: fs => by
    simp [copyNamesEntries, shownSpecsEntries, mem_copyNames k, mem_copyNames v, mem_copyNamesEntries fs, exists_or]
end

theorem copyNames_of_noSpecs {v : TVal} (hs : v.noSpecs = true) : v.copyNames = [] := by
  refine List.eq_nil_iff_forall_not_mem.2 fun n hn => ?_
  obtain ⟨r, hr⟩ := (mem_copyNames v).1 hn
  simp [shownSpecs_of_noSpecs v hs] at hr

theorem mem_shownSpecsEntries {x : SpecRef × Option GoString} : ∀ {es : List (TVal × TVal)},
    x ∈ shownSpecsEntries es ↔ ∃ e ∈ es, x ∈ e.1.shownSpecs ∨ x ∈ e.2.shownSpecs
  | [] => by simp [shownSpecsEntries]
  | (k, v) :: es => by simp [shownSpecsEntries, mem_shownSpecsEntries (es := es), or_assoc]

theorem shownSpecs_inIface (v : TVal) : v.inIface.shownSpecs = v.shownSpecs := by
  cases v <;> rfl

/-! ### What the specs in the result of a qualification are -/

/-- The spec, with the package name of the copy if there is one, is in data that was qualified: a spec that
is kept has the package name that the imports use; a copy was there before and has the name under which the
package path "" is imported, or was made because the name that the imports use for the package of the spec,
which is the name of the copy, is not its own name. -/
def SpecOut (h : Heap) (j : Imports) (l : List (SpecRef × Option GoString)) : SpecRef × Option GoString → Prop
  | (r, none) => (r, none) ∈ l ∧ ∃ o, r.parent h = .ok o ∧
      ∀ p, o = some p → ∃ f, h.files p = some f ∧ NamedIn j f.package
  | (r, some n) => ((∃ m, (r, some m) ∈ l) ∧ NamedIn j ⟨[], n⟩) ∨
      ((r, none) ∈ l ∧ ∃ p f, r.parent h = .ok (some p) ∧ h.files p = some f ∧
        NamedIn j ⟨f.package.importPath, n⟩ ∧ n ≠ f.package.name)

theorem SpecOut.ext {h : Heap} {j k : Imports} {l l' x} (hk : Ext j k) (hl : ∀ y ∈ l, y ∈ l')
    (hx : SpecOut h j l x) : SpecOut h k l' x := by
  obtain ⟨r, _ | n⟩ := x
  · obtain ⟨h1, o, h2, h3⟩ := hx
    refine ⟨hl _ h1, o, h2, fun p hp => ?_⟩
    obtain ⟨f, h4, h5⟩ := h3 p hp
    exact ⟨f, h4, hk.named h5⟩
  · rcases hx with ⟨⟨m, h0⟩, hx⟩ | ⟨h1, p, f, h2, h3, h4, h5⟩
    · exact .inl ⟨⟨m, hl _ h0⟩, hk.named hx⟩
    · exact .inr ⟨hl _ h1, p, f, h2, h3, hk.named h4, h5⟩

/-- The packages in the data are as `K` says, or have no path, and the specs as `SpecOut` says. -/
def DataOut (K : Imports → Package → Prop) (h : Heap) (j : Imports) (l : List (SpecRef × Option GoString)) (v : TVal) : Prop :=
  (∀ pk ∈ v.packages, K j pk ∨ pk.importPath = []) ∧ ∀ x ∈ v.shownSpecs, SpecOut h j l x

/-- What `K` needs for that. -/
structure LeafKnown (K : Imports → Package → Prop) (h : Heap) : Prop where
  ext : ∀ {i j pk}, Ext i j → K i pk → K j pk
  leaf : ∀ {addr v r i j}, v.noSpecs = true → qualifyData h addr v i = (.ok r, j) → ∀ pk ∈ r.1.packages, K j pk

variable {K : Imports → Package → Prop}

theorem DataOut.ext {h : Heap} (hK : LeafKnown K h) {j k : Imports} {l l' v} (hk : Ext j k) (hl : ∀ y ∈ l, y ∈ l')
    (hx : DataOut K h j l v) : DataOut K h k l' v :=
  ⟨fun pk hp => (hx.1 pk hp).imp (hK.ext hk) id, fun x h1 => (hx.2 x h1).ext hk hl⟩

theorem DataOut.of_noSpecs {h : Heap} (hK : LeafKnown K h) {addr : Bool} {v : TVal} {r : TVal × Bool} {i j : Imports}
    (hs : v.noSpecs = true) (hx : qualifyData h addr v i = (.ok r, j)) : DataOut K h j v.shownSpecs r.1 := by
  refine ⟨fun pk hk => .inl (hK.leaf hs hx pk hk), fun x h1 => ?_⟩
  simp [shownSpecs_of_noSpecs _ ((qualifyData_post h addr v hx).noSpecs hs)] at h1

theorem DataOut.inIface {h : Heap} {j : Imports} {l v} (hx : DataOut K h j l v) : DataOut K h j l v.inIface :=
  ⟨fun pk hp => hx.1 pk (packages_inIface hp), fun x h1 => hx.2 x (by rwa [shownSpecs_inIface] at h1)⟩

mutual
theorem qualifyData_out (h : Heap) (hK : LeafKnown K h) : ∀ (addr : Bool) (v : TVal) {r : TVal × Bool} {i j : Imports},
    qualifyData h addr v i = (.ok r, j) → DataOut K h j v.shownSpecs r.1
  | addr, .iface acc v, r, i, j, hx => by
    by_cases hv : v.isConv = true
    · exact .of_noSpecs hK (by cases v <;> simp_all [TVal.isConv, TVal.noSpecs]) hx
    · have hv : v.isConv = false := by simpa using hv
      rw [qualifyData_iface _ _ _ hv] at hx
      obtain ⟨⟨v', c⟩, i1, h1, hx⟩ := IM.bind_eq_ok hx
      obtain ⟨e1, e2⟩ := pure_eq_ok hx
      subst e1 e2
      have ih := qualifyData_out h hK false v h1
      have hv' : v'.isConv = false := (qualifyData_post h false v h1).conv.trans hv
      exact ⟨by rw [packages_iface _ hv']; exact ih.1, by rw [TVal.shownSpecs, TVal.shownSpecs]; exact ih.2⟩
  | addr, .spec s, r, i, j, hx => by
    rw [qualifyData] at hx
    obtain ⟨o, i1, h1, hx⟩ := IM.bind_eq_ok hx
    obtain ⟨hp, e1⟩ := lift_eq_ok h1
    subst e1
    cases o with
    | none =>
      obtain ⟨e1, e2⟩ := pure_eq_ok hx
      subst e1 e2
      refine ⟨by simp [TVal.packages], ?_⟩
      simp only [TVal.shownSpecs, List.mem_singleton, forall_eq]
      exact ⟨List.mem_singleton.2 rfl, none, hp, by simp⟩
    | some p =>
      dsimp only at hx
      obtain ⟨f, i2, h2, hx⟩ := IM.bind_eq_ok hx
      obtain ⟨hf, e2⟩ := lift_eq_ok h2
      subst e2
      rw [qualifySpecIn] at hx
      obtain ⟨n, i3, h3, hx⟩ := IM.bind_eq_ok hx
      have hn := registerPackage_named h3
      rw [IM.ite_apply] at hx
      split at hx
      · obtain ⟨e1, e2⟩ := pure_eq_ok hx
        rename_i hne
        subst e1 e2
        refine ⟨by simp [TVal.packages], ?_⟩
        simp only [TVal.shownSpecs, List.mem_singleton, forall_eq]
        exact .inr ⟨List.mem_singleton.2 rfl, p, f, hp, deref_eq_ok hf, hn, hne⟩
      · obtain ⟨e1, e2⟩ := pure_eq_ok hx
        rename_i hne
        simp only [ne_eq, not_not] at hne
        subst e1 e2 hne
        refine ⟨by simp [TVal.packages], ?_⟩
        simp only [TVal.shownSpecs, List.mem_singleton, forall_eq]
        refine ⟨List.mem_singleton.2 rfl, _, hp, ?_⟩
        rintro _ ⟨⟩
        exact ⟨f, deref_eq_ok hf, hn⟩
  | addr, .specCopy s n, r, i, j, hx => by
    rw [qualifyData, qualifySpecIn] at hx
    obtain ⟨n', i3, h3, hx⟩ := IM.bind_eq_ok hx
    have hn := registerPackage_named h3
    rw [IM.ite_apply] at hx
    split at hx
    · obtain ⟨e1, e2⟩ := pure_eq_ok hx
      subst e1 e2
      refine ⟨by simp [TVal.packages], ?_⟩
      simp only [TVal.shownSpecs, List.mem_singleton, forall_eq]
      exact .inl ⟨⟨n, List.mem_singleton.2 rfl⟩, hn⟩
    · obtain ⟨e1, e2⟩ := pure_eq_ok hx
      rename_i hne
      simp only [ne_eq, not_not] at hne
      subst e1 e2 hne
      refine ⟨by simp [TVal.packages], ?_⟩
      simp only [TVal.shownSpecs, List.mem_singleton, forall_eq]
      exact .inl ⟨⟨_, List.mem_singleton.2 rfl⟩, hn⟩
  | addr, .ptr v, r, i, j, hx => by
    rw [qualifyData] at hx
    obtain ⟨⟨v', c⟩, i1, h1, hx⟩ := IM.bind_eq_ok hx
    obtain ⟨e1, e2⟩ := pure_eq_ok hx
    subst e1 e2
    have ih := qualifyData_out h hK true v h1
    cases c
    · exact ⟨by simpa [TVal.packages] using ih.1, by simpa [TVal.shownSpecs] using ih.2⟩
    · exact ⟨by simpa [TVal.packages] using ih.inIface.1, by simpa [TVal.shownSpecs] using ih.inIface.2⟩
  | addr, .struct fs, r, i, j, hx => by
    rw [qualifyData] at hx
    obtain ⟨⟨fs', c⟩, i1, h1, hx⟩ := IM.bind_eq_ok hx
    obtain ⟨e1, e2⟩ := pure_eq_ok hx
    subst e1 e2
    have ih := qualifyDataFields_out h hK addr false false fs h1
    exact ⟨by simpa [TVal.packages] using ih.1, by simpa [TVal.shownSpecs] using ih.2⟩
  | addr, .array vs, r, i, j, hx => by
    rw [qualifyData] at hx
    obtain ⟨⟨fs', c⟩, i1, h1, hx⟩ := IM.bind_eq_ok hx
    obtain ⟨e1, e2⟩ := pure_eq_ok hx
    subst e1 e2
    have ih := qualifyDataElems_out h hK addr addr false vs h1
    exact ⟨by simpa [TVal.packages] using ih.1, by simpa [TVal.shownSpecs] using ih.2⟩
  | addr, .slice vs, r, i, j, hx => by
    rw [qualifyData] at hx
    obtain ⟨⟨fs', c⟩, i1, h1, hx⟩ := IM.bind_eq_ok hx
    obtain ⟨e1, e2⟩ := pure_eq_ok hx
    subst e1 e2
    have ih := qualifyDataElems_out h hK true true false vs h1
    exact ⟨by simpa [TVal.packages] using ih.1, by simpa [TVal.shownSpecs] using ih.2⟩
  | addr, .map es, r, i, j, hx => by
    rw [qualifyData] at hx
    obtain ⟨⟨es', c⟩, i1, h1, hx⟩ := IM.bind_eq_ok hx
    have a2 := qualifyDataEntries_out h hK es h1
    have a1 := (qualifyDataEntries_post h es h1).1
    dsimp only at hx a1 a2
    have main : ∀ l : List (TVal × TVal), (∀ e ∈ l,
        DataOut K h i1 (shownSpecsEntries es) e.1 ∧ DataOut K h i1 (shownSpecsEntries es) e.2) →
        DataOut K h i1 (TVal.map es).shownSpecs (.map l) := by
      intro l hl
      rw [TVal.shownSpecs]
      constructor
      · intro pk hpk
        rw [TVal.packages, mem_packagesEntries] at hpk
        obtain ⟨e, he, hp | hp⟩ := hpk
        · exact (hl e he).1.1 pk hp
        · exact (hl e he).2.1 pk hp
      · intro x hx
        rw [TVal.shownSpecs, mem_shownSpecsEntries] at hx
        obtain ⟨e, he, hp | hp⟩ := hx
        · exact (hl e he).1.2 x hp
        · exact (hl e he).2.2 x hp
    rw [IM.ite_apply] at hx
    split at hx
    · obtain ⟨e1, e2⟩ := pure_eq_ok hx
      subst e1 e2
      exact main _ (setMapIndex_foldl (P := DataOut K h i1 (shownSpecsEntries es))
        (Q := DataOut K h i1 (shownSpecsEntries es)) es' [] a2 (by simp))
    · obtain ⟨e1, e2⟩ := pure_eq_ok hx
      rename_i hc
      have e3 := a1 (by simpa using hc)
      subst e1 e2 e3
      exact main _ a2
  | addr, .package _, r, i, j, hx | addr, .symbol _, r, i, j, hx | addr, .mref _, r, i, j, hx
  | addr, .signature _, r, i, j, hx | addr, .embed _, r, i, j, hx | addr, .method _, r, i, j, hx
  | addr, .scalar _, r, i, j, hx | addr, .imports, r, i, j, hx | addr, .typeName _, r, i, j, hx
  | addr, .reflectType _, r, i, j, hx | addr, .goType _, r, i, j, hx | addr, .goObject _, r, i, j, hx
  | addr, .goPackage _, r, i, j, hx => .of_noSpecs hK rfl hx
theorem qualifyDataFields_out (h : Heap) (hK : LeafKnown K h) (addr : Bool) : ∀ (changed hidden : Bool)
    (fs : List (Bool × TVal)) {r : List (Bool × TVal) × Bool} {i j : Imports},
    qualifyDataFields h addr changed hidden fs i = (.ok r, j) →
    (∀ pk ∈ packagesFields r.1, K j pk ∨ pk.importPath = []) ∧
      ∀ x ∈ shownSpecsFields r.1, SpecOut h j (shownSpecsFields fs) x
  | changed, hidden, [], r, i, j, hx => by
    rw [qualifyDataFields] at hx
    obtain ⟨e1, e2⟩ := pure_eq_ok hx
    subst e1 e2
    simp [packagesFields, shownSpecsFields]
  | changed, hidden, (e, v) :: fs, r, i, j, hx => by
    rw [qualifyDataFields] at hx
    by_cases he : (!e && !addr) = true
    · rw [if_pos he] at hx; simp at hx
    · rw [if_neg he] at hx
      obtain ⟨⟨v', c⟩, i1, h1, hx⟩ := IM.bind_eq_ok hx
      dsimp only at hx
      have ih := qualifyData_out h hK addr v h1
      by_cases hp : ((changed && !e) || (!changed && c && (hidden || !e)) || (c && v.ifacePtr)) = true
      · rw [if_pos hp] at hx; simp at hx
      · rw [if_neg hp] at hx
        obtain ⟨⟨fs', c'⟩, i2, h2, hx⟩ := IM.bind_eq_ok hx
        obtain ⟨e1, e2⟩ := pure_eq_ok hx
        subst e1 e2
        obtain ⟨a1, a2⟩ := qualifyDataFields_out h hK addr _ _ fs h2
        have hext := (runs_qualifyDataFields h addr _ _ fs).ext h2
        have ih := ih.ext hK (l' := v.shownSpecs ++ shownSpecsFields fs) hext (by simp +contextual)
        simp only [packagesFields, shownSpecsFields, List.mem_append]
        exact ⟨fun pk => Or.rec (ih.1 pk) (a1 pk),
          fun x => Or.rec (ih.2 x) fun hx => (a2 x hx).ext (.refl _) (by simp +contextual)⟩
theorem qualifyDataElems_out (h : Heap) (hK : LeafKnown K h) (addr sl : Bool) : ∀ (changed : Bool)
    (vs : List TVal) {r : List TVal × Bool} {i j : Imports},
    qualifyDataElems h addr sl changed vs i = (.ok r, j) →
    (∀ pk ∈ packagesElems r.1, K j pk ∨ pk.importPath = []) ∧
      ∀ x ∈ shownSpecsElems r.1, SpecOut h j (shownSpecsElems vs) x
  | changed, [], r, i, j, hx => by
    rw [qualifyDataElems] at hx
    obtain ⟨e1, e2⟩ := pure_eq_ok hx
    subst e1 e2
    simp [packagesElems, shownSpecsElems]
  | changed, v :: vs, r, i, j, hx => by
    rw [qualifyDataElems] at hx
    obtain ⟨⟨v', c⟩, i1, h1, hx⟩ := IM.bind_eq_ok hx
    dsimp only at hx
    have ih := qualifyData_out h hK addr v h1
    by_cases hp : ((!changed && c && !sl) || (c && v.ifacePtr)) = true
    · rw [if_pos hp] at hx; simp at hx
    · rw [if_neg hp] at hx
      obtain ⟨⟨fs', c'⟩, i2, h2, hx⟩ := IM.bind_eq_ok hx
      obtain ⟨e1, e2⟩ := pure_eq_ok hx
      subst e1 e2
      obtain ⟨a1, a2⟩ := qualifyDataElems_out h hK addr _ _ vs h2
      have hext := (runs_qualifyDataElems h addr _ _ vs).ext h2
      have ih := ih.ext hK (l' := v.shownSpecs ++ shownSpecsElems vs) hext (by simp +contextual)
      simp only [packagesElems, shownSpecsElems, List.mem_append]
      exact ⟨fun pk => Or.rec (ih.1 pk) (a1 pk),
        fun x => Or.rec (ih.2 x) fun hx => (a2 x hx).ext (.refl _) (by simp +contextual)⟩
theorem qualifyDataEntries_out (h : Heap) (hK : LeafKnown K h) : ∀ (es : List (TVal × TVal))
    {r : List (TVal × TVal) × Bool} {i j : Imports},
    qualifyDataEntries h es i = (.ok r, j) →
    ∀ e ∈ r.1, DataOut K h j (shownSpecsEntries es) e.1 ∧ DataOut K h j (shownSpecsEntries es) e.2
  | [], r, i, j, hx => by
    rw [qualifyDataEntries] at hx
    obtain ⟨e1, e2⟩ := pure_eq_ok hx
    subst e1 e2
    simp
  | (k, v) :: es, r, i, j, hx => by
    rw [qualifyDataEntries] at hx
    obtain ⟨⟨k', ck⟩, i1, h1, hx⟩ := IM.bind_eq_ok hx
    obtain ⟨⟨v', cv⟩, i2, h2, hx⟩ := IM.bind_eq_ok hx
    obtain ⟨-, hx⟩ := IM.ite_panic_eq_ok hx
    obtain ⟨⟨es', c⟩, i3, h3, hx⟩ := IM.bind_eq_ok hx
    obtain ⟨e1, e2⟩ := pure_eq_ok hx
    subst e1 e2
    have ihk := qualifyData_out h hK false k h1
    have ihv := qualifyData_out h hK false v h2
    have a2 := qualifyDataEntries_out h hK es h3
    have ext3 := (runs_qualifyDataEntries h es).ext h3
    have ext2 := (ext_qualifyData h2).trans ext3
    intro e he
    rw [shownSpecsEntries]
    rcases List.mem_cons.1 he with rfl | he
    · exact ⟨ihk.ext hK ext2 (by simp +contextual), ihv.ext hK ext3 (by simp +contextual)⟩
    · exact ⟨(a2 e he).1.ext hK (.refl _) (by simp +contextual), (a2 e he).2.ext hK (.refl _) (by simp +contextual)⟩
end

/-! ### `QualifyTemplateData` -/

/-- Qualifying the template data does nothing, in this state and in all later ones, as soon as the copies
that stand for specs have the name under which the package path "" is imported. -/
def TemplDone (h : Heap) (i : Imports) (v : TVal) : Prop :=
  (∀ h' k, SpecsStay h h' → Ext i k → CopiesNamed k v.copyNames → qualifyTemplateData h' v k = (.ok v, k)) ∧
    ∀ pk ∈ (TVal.iface acceptsAll v).refs, QPkg i pk

theorem TemplDone.later {h h' : Heap} {i j : Imports} (hs : SpecsStay h h') (he : Ext i j) {v : TVal}
    (hv : TemplDone h i v) : TemplDone h' j v :=
  ⟨fun h'' k hs' hk => hv.1 h'' k (hs.trans hs') (he.trans hk), fun pk hp => he.qpkg (hv.2 pk hp)⟩

theorem qualifyData_iface_shape {h : Heap} {addr : Bool} {acc : Accepts} {v : TVal} {r : TVal × Bool}
    {i j : Imports} (hx : qualifyData h addr (.iface acc v) i = (.ok r, j)) :
    ∃ v', r.1 = .iface acc v' := by
  by_cases hv : v.isConv = false
  · rw [qualifyData_iface _ _ _ hv] at hx
    obtain ⟨a, i1, _, hx⟩ := IM.bind_eq_ok hx
    obtain ⟨e1, _⟩ := pure_eq_ok hx
    subst e1
    exact ⟨_, rfl⟩
  · cases v <;> simp only [TVal.isConv, not_true_eq_false, Bool.true_eq_false, not_false_eq_true] at hv
    case typeName | reflectType | goType =>
      rw [qualifyData, qualifyConverted] at hx
      obtain ⟨a, i1, _, hx⟩ := IM.bind_eq_ok hx
      obtain ⟨b, i1, _, hx⟩ := IM.bind_eq_ok hx
      dsimp only at hx
      rw [IM.ite_apply] at hx
      split at hx <;> (obtain ⟨e1, _⟩ := pure_eq_ok hx; subst e1; exact ⟨_, rfl⟩)
    case goObject =>
      rw [qualifyData] at hx
      obtain ⟨a, i1, _, hx⟩ := IM.bind_eq_ok hx
      cases a <;>
      · rw [qualifyObject] at hx
        obtain ⟨b, i1, _, hx⟩ := IM.bind_eq_ok hx
        rw [IM.ite_apply] at hx
        split at hx <;> (obtain ⟨e1, _⟩ := pure_eq_ok hx; subst e1; exact ⟨_, rfl⟩)
    case goPackage =>
      rw [qualifyData] at hx
      obtain ⟨a, i1, _, hx⟩ := IM.bind_eq_ok hx
      obtain ⟨b, i1, _, hx⟩ := IM.bind_eq_ok hx
      rw [IM.ite_apply] at hx
      split at hx <;> (obtain ⟨e1, _⟩ := pure_eq_ok hx; subst e1; exact ⟨_, rfl⟩)

theorem qualifyTemplateData_done {h : Heap} {v v' : TVal} {i j : Imports}
    (hx : qualifyTemplateData h v i = (.ok v', j)) :
    TemplDone h j v' ∧ (v.noSpecs = true → v'.noSpecs = true) := by
  rw [qualifyTemplateData] at hx
  obtain ⟨⟨r, c⟩, i1, h1, hx⟩ := IM.bind_eq_ok hx
  obtain ⟨w, hw⟩ := qualifyData_iface_shape h1
  dsimp only at hw hx
  subst hw
  obtain ⟨e1, e2⟩ := pure_eq_ok hx
  subst e1 e2
  have hp := qualifyData_post h true (.iface acceptsAll v) h1
  refine ⟨⟨fun h' k hst hk hcn => ?_, hp.refs⟩, by simpa [TVal.noSpecs] using hp.noSpecs⟩
  rw [qualifyTemplateData, IM.bind_ok (hp.done h' k hst hk (by simpa [TVal.copyNames] using hcn))]
  rfl

/-- The same for `QualifyTemplateData`. -/
theorem qualifyTemplateData_out {h : Heap} (hK : LeafKnown K h) {v v' : TVal} {i j : Imports}
    (hx : qualifyTemplateData h v i = (.ok v', j)) : DataOut K h j v.shownSpecs (.iface acceptsAll v') := by
  rw [qualifyTemplateData] at hx
  obtain ⟨⟨r, c⟩, i1, h1, hx⟩ := IM.bind_eq_ok hx
  obtain ⟨w, hw⟩ := qualifyData_iface_shape h1
  dsimp only at hw hx
  subst hw
  obtain ⟨e1, e2⟩ := pure_eq_ok hx
  subst e1 e2
  have hp := qualifyData_out h hK true (.iface acceptsAll v) h1
  rwa [TVal.shownSpecs] at hp

end Gopoet
