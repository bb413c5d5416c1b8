import Verif.Proof.DataNaN
/-! Template data with NaN in the keys of maps: comparison with data that has numbers at these keys. -/

namespace Gopoet
open Imports

mutual
theorem dropNaN_mapNaN (nan : Nat → Bool) (f : TVal → TVal) : ∀ v : TVal,
    (v.mapNaN nan f).dropNaN nan = v.dropNaN nan
  | .iface _ v => by rw [TVal.mapNaN, TVal.dropNaN, TVal.dropNaN, dropNaN_mapNaN nan f v]
  | .ptr v => by rw [TVal.mapNaN, TVal.dropNaN, TVal.dropNaN, dropNaN_mapNaN nan f v]
  | .struct fs => by rw [TVal.mapNaN, TVal.dropNaN, TVal.dropNaN, dropNaN_mapNaNFields nan f fs]
  | .array vs => by rw [TVal.mapNaN, TVal.dropNaN, TVal.dropNaN, dropNaN_mapNaNElems nan f vs]
  | .slice vs => by rw [TVal.mapNaN, TVal.dropNaN, TVal.dropNaN, dropNaN_mapNaNElems nan f vs]
  | .map es => by rw [TVal.mapNaN, TVal.dropNaN, TVal.dropNaN, dropNaN_mapNaNEntries nan f es]
  | .scalar _ | .package _ | .symbol _ | .mref _ | .signature _ | .spec _
  | .specCopy _ _ | .embed _ | .method _ | .imports | .typeName _ | .reflectType _
  | .goType _ | .goObject _ | .goPackage _ => rfl

theorem dropNaN_mapNaNFields (nan : Nat → Bool) (f : TVal → TVal) : ∀ fs : List (Bool × TVal),
    dropNaNFields nan (mapNaNFields nan f fs) = dropNaNFields nan fs
  | [] => rfl
  | (e, v) :: fs => by
    rw [mapNaNFields, dropNaNFields, dropNaNFields, dropNaN_mapNaN nan f v, dropNaN_mapNaNFields nan f fs]

theorem dropNaN_mapNaNElems (nan : Nat → Bool) (f : TVal → TVal) : ∀ vs : List TVal,
    dropNaNElems nan (mapNaNElems nan f vs) = dropNaNElems nan vs
  | [] => rfl
  | v :: vs => by
    rw [mapNaNElems, dropNaNElems, dropNaNElems, dropNaN_mapNaN nan f v, dropNaN_mapNaNElems nan f vs]

theorem dropNaN_mapNaNEntries (nan : Nat → Bool) (f : TVal → TVal) : ∀ es : List (TVal × TVal),
    dropNaNEntries nan (mapNaNEntries nan f es) = dropNaNEntries nan es
  | [] => rfl
  | (k, v) :: es => by
    rw [mapNaNEntries, dropNaNEntries, dropNaNEntries, dropNaN_mapNaNEntries nan f es]
    split
    · rfl
    · rw [dropNaN_mapNaN nan f v]
end

theorem inIface_dropNaN (nan : Nat → Bool) (v : TVal) : v.inIface.dropNaN nan = (v.dropNaN nan).inIface := by
  cases v <;> rfl

theorem setMapIndex_dropNaN (nan : Nat → Bool) (k v : TVal) : ∀ m : List (TVal × TVal),
    dropNaNEntries nan (setMapIndex m k v) =
      if k.hasNaN nan then dropNaNEntries nan m else setMapIndex (dropNaNEntries nan m) k (v.dropNaN nan)
  | [] => by simp only [setMapIndex, dropNaNEntries]
  | (a, b) :: m => by
    have ih := setMapIndex_dropNaN nan k v m
    rw [setMapIndex]
    simp only
    split
    · rename_i hab
      have := hasNaN_of_keyEq nan a k hab
      rw [dropNaNEntries, dropNaNEntries, this]
      split
      · rfl
      · rw [setMapIndex]; simp only [hab, if_true]
    · rename_i hab
      rw [dropNaNEntries, dropNaNEntries, ih]
      cases hk : k.hasNaN nan <;> cases ha : a.hasNaN nan <;> simp only [Bool.false_eq_true, if_false, if_true]
      rw [setMapIndex]; simp only [hab, Bool.false_eq_true, if_false]

theorem setAll_dropNaN (nan : Nat → Bool) : ∀ (es m : List (TVal × TVal)),
    dropNaNEntries nan (es.foldl (fun m e => setMapIndex m e.1 e.2) m)
      = (dropNaNEntries nan es).foldl (fun m e => setMapIndex m e.1 e.2) (dropNaNEntries nan m)
  | [], _ => rfl
  | (k, v) :: es, m => by
    rw [List.foldl_cons, setAll_dropNaN nan es, setMapIndex_dropNaN, dropNaNEntries]
    split
    · rfl
    · rw [List.foldl_cons]

theorem qualifyData_scalar (h : Heap) (addr : Bool) (n : Nat) :
    qualifyData h addr (.scalar n) = pure (.scalar n, false) := by
  rw [qualifyData] <;> (intros; simp_all)

theorem im_pure_bind {α β : Type} (a : α) (f : α → IM β) : ((pure a : IM α) >>= f) = f a := rfl

mutual
theorem blank_abreast (nan : Nat → Bool) (h : Heap) (addr : Bool) : ∀ v : TVal, v.flatNaN nan = true →
    Abreast (fun a b => a.1.dropNaN nan = b.1.dropNaN nan ∧ a.2 = b.2) (qualifyDataNaN nan h addr v)
      (qualifyData h addr (v.mapNaN nan fun _ => .scalar 0))
  | .iface acc v, hv => by
    cases hc : v.isConv with
    | true =>
      have hl : (TVal.iface acc v).leaf = true := by simpa [TVal.leaf] using hc
      rw [mapNaN_of_leaf nan _ hl, nan_leaf nan h addr hl]
      exact (Abreast.same (mapNaN_leaf nan h addr hl)).mono fun a b hab => by rw [← hab.1]; exact ⟨rfl, rfl⟩
    | false =>
      rw [TVal.mapNaN, nan_iface _ _ _ _ hc, qualifyData_iface _ _ _ (by rw [isConv_mapNaN, hc])]
      exact (blank_abreast nan h false v (by simpa [TVal.flatNaN] using hv)).bind fun a b hab =>
        .pure ⟨by rw [TVal.dropNaN, TVal.dropNaN, hab.1], hab.2⟩
  | .ptr v, hv => by
    rw [TVal.mapNaN, qualifyDataNaN, qualifyData]
    refine (blank_abreast nan h true v (by simpa [TVal.flatNaN] using hv)).bind fun a b hab => ?_
    obtain ⟨a, c⟩ := a
    obtain ⟨b, d⟩ := b
    obtain ⟨hab, rfl⟩ : a.dropNaN nan = b.dropNaN nan ∧ c = d := hab
    cases c
    · exact .pure ⟨by simp only [Bool.false_eq_true, if_false, TVal.dropNaN, hab], rfl⟩
    · exact .pure ⟨by simp only [if_true, TVal.dropNaN, inIface_dropNaN, hab], rfl⟩
  | .struct fs, hv => by
    rw [TVal.mapNaN, qualifyDataNaN, qualifyData]
    exact (blank_abreastFields nan h addr false false fs (by simpa [TVal.flatNaN] using hv)).bind fun a b hab =>
      .pure ⟨by rw [TVal.dropNaN, TVal.dropNaN, hab.1], hab.2⟩
  | .array vs, hv => by
    rw [TVal.mapNaN, qualifyDataNaN, qualifyData]
    exact (blank_abreastElems nan h addr addr false vs (by simpa [TVal.flatNaN] using hv)).bind fun a b hab =>
      .pure ⟨by rw [TVal.dropNaN, TVal.dropNaN, hab.1], hab.2⟩
  | .slice vs, hv => by
    rw [TVal.mapNaN, qualifyDataNaN, qualifyData]
    exact (blank_abreastElems nan h true true false vs (by simpa [TVal.flatNaN] using hv)).bind fun a b hab =>
      .pure ⟨by rw [TVal.dropNaN, TVal.dropNaN, hab.1], hab.2⟩
  | .map es, hv => by
    rw [TVal.mapNaN, qualifyDataNaN, qualifyData]
    refine (blank_abreastEntries nan h es (by simpa [TVal.flatNaN] using hv)).bind fun a b hab => ?_
    obtain ⟨a, c⟩ := a
    obtain ⟨b, d⟩ := b
    obtain ⟨hab, rfl⟩ : dropNaNEntries nan a = dropNaNEntries nan b ∧ c = d := hab
    cases c
    · exact .pure ⟨by rw [TVal.dropNaN, TVal.dropNaN, dropNaN_mapNaNEntries], rfl⟩
    · exact .pure ⟨by rw [TVal.dropNaN, TVal.dropNaN, setAll_dropNaN, setAll_dropNaN, hab], rfl⟩
  | .scalar _, _ | .package _, _ | .symbol _, _ | .mref _, _ | .signature _, _ | .spec _, _
  | .specCopy _ _, _ | .embed _, _ | .method _, _ | .imports, _ | .typeName _, _ | .reflectType _, _
  | .goType _, _ | .goObject _, _ | .goPackage _, _ => by
    rw [mapNaN_of_leaf nan _ rfl, nan_leaf nan h addr rfl]
    exact (Abreast.same (mapNaN_leaf nan h addr rfl)).mono fun a b hab => by rw [← hab.1]; exact ⟨rfl, rfl⟩

theorem blank_abreastFields (nan : Nat → Bool) (h : Heap) (addr changed hidden : Bool) :
    ∀ fs : List (Bool × TVal), flatNaNFields nan fs = true →
    Abreast (fun a b => dropNaNFields nan a.1 = dropNaNFields nan b.1 ∧ a.2 = b.2)
      (qualifyDataFieldsNaN nan h addr changed hidden fs)
      (qualifyDataFields h addr changed hidden (mapNaNFields nan (fun _ => .scalar 0) fs))
  | [], _ => by
    rw [mapNaNFields, qualifyDataFieldsNaN, qualifyDataFields]
    exact .pure ⟨rfl, rfl⟩
  | (e, v) :: fs, hv => by
    simp only [flatNaNFields, Bool.and_eq_true] at hv
    rw [mapNaNFields, qualifyDataFieldsNaN, qualifyDataFields]
    refine .ite .panic ((blank_abreast nan h addr v hv.1).bind fun a b hab => ?_)
    obtain ⟨a, c⟩ := a
    obtain ⟨b, d⟩ := b
    obtain ⟨hab, rfl⟩ : a.dropNaN nan = b.dropNaN nan ∧ c = d := hab
    simp only [ifacePtr_mapNaN]
    refine .ite .panic ((blank_abreastFields nan h addr _ _ fs hv.2).bind fun q r hqr => .pure ?_)
    exact ⟨by rw [dropNaNFields, dropNaNFields, hab, hqr.1], hqr.2⟩

theorem blank_abreastElems (nan : Nat → Bool) (h : Heap) (addr sliceable changed : Bool) :
    ∀ vs : List TVal, flatNaNElems nan vs = true →
    Abreast (fun a b => dropNaNElems nan a.1 = dropNaNElems nan b.1 ∧ a.2 = b.2)
      (qualifyDataElemsNaN nan h addr sliceable changed vs)
      (qualifyDataElems h addr sliceable changed (mapNaNElems nan (fun _ => .scalar 0) vs))
  | [], _ => by
    rw [mapNaNElems, qualifyDataElemsNaN, qualifyDataElems]
    exact .pure ⟨rfl, rfl⟩
  | v :: vs, hv => by
    simp only [flatNaNElems, Bool.and_eq_true] at hv
    rw [mapNaNElems, qualifyDataElemsNaN, qualifyDataElems]
    refine (blank_abreast nan h addr v hv.1).bind fun a b hab => ?_
    obtain ⟨a, c⟩ := a
    obtain ⟨b, d⟩ := b
    obtain ⟨hab, rfl⟩ : a.dropNaN nan = b.dropNaN nan ∧ c = d := hab
    simp only [ifacePtr_mapNaN]
    refine .ite .panic ((blank_abreastElems nan h addr _ _ vs hv.2).bind fun q r hqr => .pure ?_)
    exact ⟨by rw [dropNaNElems, dropNaNElems, hab, hqr.1], hqr.2⟩

theorem blank_abreastEntries (nan : Nat → Bool) (h : Heap) : ∀ es : List (TVal × TVal), flatNaNEntries nan es = true →
    Abreast (fun a b => dropNaNEntries nan a.1 = dropNaNEntries nan b.1 ∧ a.2 = b.2)
      (qualifyDataEntriesNaN nan h es) (qualifyDataEntries h (mapNaNEntries nan (fun _ => .scalar 0) es))
  | [], _ => by
    rw [mapNaNEntries, qualifyDataEntriesNaN, qualifyDataEntries]
    exact .pure ⟨rfl, rfl⟩
  | (k, v) :: es, hv => by
    simp only [flatNaNEntries, Bool.and_eq_true, Bool.or_eq_true] at hv
    rw [mapNaNEntries, qualifyDataEntriesNaN, qualifyDataEntries, ← nan_none nan h false k hv.1.1]
    refine (Abreast.same (hasNaN_kept nan h false k)).bind fun a b hab => ?_
    obtain ⟨rfl, hk'⟩ := hab
    cases hk : k.hasNaN nan with
    | true =>
      simp only [if_true, qualifyData_scalar, im_pure_bind, Bool.false_and, Bool.or_false]
      refine .ite .panic ((blank_abreastEntries nan h es hv.2).bind fun q r hqr => .pure ?_)
      exact ⟨by simp only [dropNaNEntries, hk', hk, if_true, hqr.1], by simp only [hqr.2]⟩
    | false =>
      have h2 : v.flatNaN nan = true := hv.1.2.resolve_left (by simp [hk])
      simp only [Bool.false_eq_true, if_false]
      refine (blank_abreast nan h false v h2).bind fun x y hxy => ?_
      obtain ⟨x, c⟩ := x
      obtain ⟨y, d⟩ := y
      obtain ⟨hxy, rfl⟩ : x.dropNaN nan = y.dropNaN nan ∧ c = d := hxy
      simp only [ifacePtr_mapNaN]
      refine .ite .panic ((blank_abreastEntries nan h es hv.2).bind fun q r hqr => .pure ?_)
      exact ⟨by simp only [dropNaNEntries, hk', hk, Bool.false_eq_true, if_false, hqr.1, hxy], by simp only [hqr.2]⟩
end

end Gopoet
