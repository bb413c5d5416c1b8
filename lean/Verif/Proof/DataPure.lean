import Verif.Model.TemplatePure
import Verif.Spec.TemplatePure
import Verif.Proof.SettledData
/-! Template data in builds without `unsafe`. -/

namespace Gopoet
open Imports

/-- `y` does what `x` does, with results taken to others by `g`; if `s`, this need not be so where `x`
panics. -/
def Image {α β : Type} (s : Prop) (g : α → β) (x : IM α) (y : IM β) : Prop :=
  ∀ i, (s ∧ (x i).1 = .panic) ∨ y i = ((x i).1.bind fun a => .ok (g a), (x i).2)

namespace Image
variable {α β γ δ : Type} {s : Prop}

theorem pure (g : α → β) (a : α) : Image s g (Pure.pure a) (Pure.pure (g a)) := fun _ => .inr rfl

theorem panic (g : α → β) : Image s g IM.panic IM.panic := fun _ => .inr rfl

theorem panics (g : α → β) (y : IM β) (hs : s) : Image s g IM.panic y := fun _ => .inl ⟨hs, rfl⟩

theorem bind {g : α → β} {k : γ → δ} {x : IM α} {y : IM β} {p : α → IM γ} {q : β → IM δ}
    (h : Image s g x y) (hf : ∀ a, Image s k (p a) (q (g a))) : Image s k (x >>= p) (y >>= q) := by
  intro i
  have h := h i
  rw [IM.bind_apply, IM.bind_apply]
  rcases hx : x i with ⟨a | _ | _, j⟩
  · rw [hx] at h
    rcases h with ⟨_, h⟩ | h
    · simp at h
    · rw [h]; exact hf a j
  · rw [hx] at h
    rcases h with ⟨hs, _⟩ | h
    · exact .inl ⟨hs, rfl⟩
    · rw [h]; exact .inr rfl
  · rw [hx] at h
    rcases h with ⟨_, h⟩ | h
    · simp at h
    · rw [h]; exact .inr rfl

theorem self {g : α → α} {x : IM α} (h : ∀ i a j, x i = (.ok a, j) → g a = a) : Image s g x x := by
  intro i
  right
  rcases hx : x i with ⟨a | _ | _, j⟩
  · show _ = (Outcome.ok (g a), j)
    rw [h i a j hx]
  · rfl
  · rfl

end Image

/-- What is in the results. -/
def Yields {α : Type} (P : α → Prop) (x : IM α) : Prop := ∀ i a j, x i = (.ok a, j) → P a

namespace Yields
variable {α β : Type}

theorem pure {P : α → Prop} {a : α} (h : P a) : Yields P (Pure.pure a) := by
  intro i b j hb
  cases hb
  exact h

theorem bind {P : β → Prop} {x : IM α} {f : α → IM β} (h : ∀ a, Yields P (f a)) : Yields P (x >>= f) := by
  intro i b j hb
  obtain ⟨a, k, _, h2⟩ := IM.bind_eq_ok hb
  exact h a k b j h2

theorem ite {P : α → Prop} {c : Prop} [Decidable c] {x y : IM α} (hx : Yields P x) (hy : Yields P y) :
    Yields P (if c then x else y) := by split <;> assumption

end Yields

/-- The value contains no structs with fields to look at. -/
def TVal.Bare (v : TVal) : Prop := (∀ f, v.mapHidden f = v) ∧ v.cover = v

/-- The value does not lead to other values. -/
def TVal.leaf : TVal → Bool
  | .iface _ v => v.isConv
  | .ptr _ | .struct _ | .array _ | .slice _ | .map _ => false
  | _ => true

theorem bare_of_leaf {v : TVal} (hv : v.leaf = true) : v.Bare := by
  cases v with
  | iface acc v =>
    simp only [TVal.leaf] at hv
    cases v <;> simp only [TVal.isConv, Bool.false_eq_true] at hv <;> exact ⟨fun _ => rfl, rfl⟩
  | _ => first | exact ⟨fun _ => rfl, rfl⟩ | simp [TVal.leaf] at hv

theorem yields_qualifySpecIn (r : SpecRef) {o : TVal} (p : Package) (ho : o.Bare) :
    Yields (fun r => r.1.Bare) (qualifySpecIn r o p) :=
  .bind fun _ => .ite (.pure ⟨fun _ => rfl, rfl⟩) (.pure ho)

theorem yields_leaf (h : Heap) (addr : Bool) {v : TVal} (hv : v.leaf = true) :
    Yields (fun r => r.1.Bare) (qualifyData h addr v) := by
  have hb := bare_of_leaf hv
  have conv : ∀ acc o t, o.Bare → Yields (fun r => r.1.Bare) (qualifyConverted acc o t) := fun acc o t ho =>
    .bind fun _ => .bind fun _ => .ite (.pure ⟨fun _ => rfl, rfl⟩) (.pure ho)
  cases v with
  | iface acc v =>
    simp only [TVal.leaf] at hv
    cases v <;> simp only [TVal.isConv, Bool.false_eq_true] at hv <;> rw [qualifyData]
    · exact conv _ _ _ hb
    · exact conv _ _ _ hb
    · exact conv _ _ _ hb
    · refine .bind fun sm => ?_
      cases sm <;> exact .bind fun _ => .ite (.pure ⟨fun _ => rfl, rfl⟩) (.pure hb)
    · exact .bind fun _ => .bind fun _ => .ite (.pure ⟨fun _ => rfl, rfl⟩) (.pure hb)
  | package p => rw [qualifyData]; exact .bind fun _ => .ite (.pure ⟨fun _ => rfl, rfl⟩) (.pure hb)
  | symbol s => rw [qualifyData]; exact .bind fun _ => .pure ⟨fun _ => rfl, rfl⟩
  | mref s => rw [qualifyData]; exact .bind fun _ => .pure ⟨fun _ => rfl, rfl⟩
  | signature s => rw [qualifyData]; exact .bind fun _ => .pure ⟨fun _ => rfl, rfl⟩
  | embed s => rw [qualifyData]; exact .bind fun _ => .pure ⟨fun _ => rfl, rfl⟩
  | method s => rw [qualifyData]; exact .bind fun _ => .pure ⟨fun _ => rfl, rfl⟩
  | spec r =>
    rw [qualifyData]
    refine .bind fun q => ?_
    cases q with
    | none => exact .pure hb
    | some f => exact .bind fun _ => yields_qualifySpecIn _ _ hb
  | specCopy r n => rw [qualifyData]; exact yields_qualifySpecIn _ _ hb
  | _ =>
    first
    | exact absurd hv Bool.false_ne_true
    | (rw [qualifyData] <;> first | exact .pure hb | (intros; simp_all))

theorem pure_leaf (h : Heap) (addr : Bool) {v : TVal} (hv : v.leaf = true) :
    qualifyDataPure h addr v = qualifyData h addr v := by
  cases v with
  | iface acc v =>
    simp only [TVal.leaf] at hv
    cases v <;> simp only [TVal.isConv, Bool.false_eq_true] at hv <;> rw [qualifyDataPure]
  | _ =>
    first
    | exact absurd hv Bool.false_ne_true
    | (rw [qualifyDataPure] <;> (intros; simp_all))

theorem pure_iface (h : Heap) (addr : Bool) (acc : Accepts) {v : TVal} (hv : v.isConv = false) :
    qualifyDataPure h addr (.iface acc v) = (do
      let (v', c) ← qualifyDataPure h false v
      pure (.iface acc v', c)) := by
  cases v <;> simp only [TVal.isConv, Bool.true_eq_false] at hv <;> rw [qualifyDataPure] <;> simp

/-! ### Exported fields only -/

mutual
theorem pure_exported (h : Heap) (addr : Bool) : ∀ v : TVal, v.exported = true →
    qualifyDataPure h addr v = qualifyData h addr v
  | .iface acc v, hv => by
    cases hc : v.isConv with
    | true => exact pure_leaf h addr (by simpa [TVal.leaf] using hc)
    | false =>
      rw [pure_iface _ _ _ hc, qualifyData_iface _ _ _ hc, pure_exported h false v (by simpa [TVal.exported] using hv)]
  | .ptr v, hv => by
    rw [qualifyDataPure, qualifyData, pure_exported h true v (by simpa [TVal.exported] using hv)]
  | .struct fs, hv => by
    rw [qualifyDataPure, qualifyData, pure_exportedFields h addr false fs (by simpa [TVal.exported] using hv)]
  | .array vs, hv => by
    rw [qualifyDataPure, qualifyData, pure_exportedElems h addr addr false vs (by simpa [TVal.exported] using hv)]
  | .slice vs, hv => by
    rw [qualifyDataPure, qualifyData, pure_exportedElems h true true false vs (by simpa [TVal.exported] using hv)]
  | .map es, hv => by
    rw [qualifyDataPure, qualifyData, pure_exportedEntries h es (by simpa [TVal.exported] using hv)]
  | .scalar _, _ | .package _, _ | .symbol _, _ | .mref _, _ | .signature _, _ | .spec _, _
  | .specCopy _ _, _ | .embed _, _ | .method _, _ | .imports, _ | .typeName _, _ | .reflectType _, _
  | .goType _, _ | .goObject _, _ | .goPackage _, _ => pure_leaf h addr rfl

theorem pure_exportedFields (h : Heap) (addr changed : Bool) : ∀ fs : List (Bool × TVal),
    exportedFields fs = true →
    qualifyDataFieldsPure h addr changed false fs = qualifyDataFields h addr changed false fs
  | [], _ => by rw [qualifyDataFieldsPure, qualifyDataFields]
  | (e, v) :: fs, hv => by
    simp only [exportedFields, Bool.and_eq_true] at hv
    obtain ⟨⟨rfl, h1⟩, h2⟩ := hv
    rw [qualifyDataFieldsPure, qualifyDataFields, pure_exported h addr v h1]
    have ih := fun c => pure_exportedFields h addr c fs h2
    simp only [Bool.not_true, Bool.false_and, Bool.false_eq_true, if_false, Bool.or_false,
      Bool.and_false, Bool.false_or, ih]

theorem pure_exportedElems (h : Heap) (addr sliceable changed : Bool) : ∀ vs : List TVal,
    exportedElems vs = true →
    qualifyDataElemsPure h addr sliceable changed vs = qualifyDataElems h addr sliceable changed vs
  | [], _ => by rw [qualifyDataElemsPure, qualifyDataElems]
  | v :: vs, hv => by
    simp only [exportedElems, Bool.and_eq_true] at hv
    rw [qualifyDataElemsPure, qualifyDataElems, pure_exported h addr v hv.1]
    have ih := fun c => pure_exportedElems h addr sliceable c vs hv.2
    simp only [ih]

theorem pure_exportedEntries (h : Heap) : ∀ es : List (TVal × TVal), exportedEntries es = true →
    qualifyDataEntriesPure h es = qualifyDataEntries h es
  | [], _ => by rw [qualifyDataEntriesPure, qualifyDataEntries]
  | (k, v) :: es, hv => by
    simp only [exportedEntries, Bool.and_eq_true] at hv
    rw [qualifyDataEntriesPure, qualifyDataEntries, pure_exported h false k hv.1.1,
      pure_exported h false v hv.1.2, pure_exportedEntries h es hv.2]
end

/-! ### Other values in unexported fields -/

theorem isConv_mapHidden (f : TVal → TVal) (v : TVal) : (v.mapHidden f).isConv = v.isConv := by
  cases v <;> rfl

theorem ifacePtr_mapHidden (f : TVal → TVal) : ∀ v : TVal, (v.mapHidden f).ifacePtr = v.ifacePtr
  | .ptr v => by
    have ih := ifacePtr_mapHidden f v
    cases v <;> first | rfl | simpa [TVal.mapHidden, TVal.ifacePtr] using ih
  | .iface _ _ | .struct _ | .array _ | .slice _ | .map _ | .scalar _ | .package _ | .symbol _ | .mref _
  | .signature _ | .spec _ | .specCopy _ _ | .embed _ | .method _ | .imports | .typeName _ | .reflectType _
  | .goType _ | .goObject _ | .goPackage _ => rfl

theorem inIface_mapHidden (f : TVal → TVal) (v : TVal) : (v.mapHidden f).inIface = v.inIface.mapHidden f := by
  cases v <;> rfl

theorem setMapIndex_mapHidden (f : TVal → TVal) (k v : TVal) : ∀ m : List (TVal × TVal),
    setMapIndex (mapHiddenEntries f m) k (v.mapHidden f) = mapHiddenEntries f (setMapIndex m k v)
  | [] => rfl
  | (a, b) :: m => by
    rw [mapHiddenEntries, setMapIndex, setMapIndex]
    simp only
    split
    · rfl
    · rw [setMapIndex_mapHidden f k v m]; rfl

theorem setAll_mapHidden (f : TVal → TVal) : ∀ (es m : List (TVal × TVal)),
    (mapHiddenEntries f es).foldl (fun m e => setMapIndex m e.1 e.2) (mapHiddenEntries f m)
      = mapHiddenEntries f (es.foldl (fun m e => setMapIndex m e.1 e.2) m)
  | [], _ => rfl
  | (k, v) :: es, m => by
    rw [mapHiddenEntries, List.foldl_cons, List.foldl_cons]
    simp only
    rw [setMapIndex_mapHidden, setAll_mapHidden f es]

theorem image_leaf {h : Heap} {addr : Bool} {v : TVal} (f : TVal → TVal) (hv : v.leaf = true) :
    Image False (fun r : TVal × Bool => (r.1.mapHidden f, r.2)) (qualifyDataPure h addr v)
      (qualifyDataPure h addr (v.mapHidden f)) := by
  rw [(bare_of_leaf hv).1 f, pure_leaf h addr hv]
  exact Image.self fun i a j ha => by
    rw [(yields_leaf h addr hv i a j ha).1 f]

mutual
theorem image_pure (h : Heap) (f : TVal → TVal) (addr : Bool) : ∀ v : TVal,
    Image False (fun r : TVal × Bool => (r.1.mapHidden f, r.2)) (qualifyDataPure h addr v)
      (qualifyDataPure h addr (v.mapHidden f))
  | .iface acc v => by
    cases hc : v.isConv with
    | true => exact image_leaf f (by simpa [TVal.leaf] using hc)
    | false =>
      rw [TVal.mapHidden, pure_iface _ _ _ hc, pure_iface _ _ _ (by rw [isConv_mapHidden, hc])]
      exact (image_pure h f false v).bind fun r => .pure _ (_, _)
  | .ptr v => by
    rw [TVal.mapHidden, qualifyDataPure, qualifyDataPure]
    refine (image_pure h f true v).bind fun r => ?_
    obtain ⟨r, c⟩ := r
    cases c
    · exact .pure (fun r : TVal × Bool => (r.1.mapHidden f, r.2)) (.ptr r, false)
    · simp only [if_true, inIface_mapHidden]
      exact .pure (fun r : TVal × Bool => (r.1.mapHidden f, r.2)) (.ptr r.inIface, true)
  | .struct fs => by
    rw [TVal.mapHidden, qualifyDataPure, qualifyDataPure]
    exact (image_pureFields h f addr false false fs).bind fun r =>
      .pure (fun r : TVal × Bool => (r.1.mapHidden f, r.2)) (.struct r.1, r.2)
  | .array vs => by
    rw [TVal.mapHidden, qualifyDataPure, qualifyDataPure]
    exact (image_pureElems h f addr addr false vs).bind fun r =>
      .pure (fun r : TVal × Bool => (r.1.mapHidden f, r.2)) (.array r.1, r.2)
  | .slice vs => by
    rw [TVal.mapHidden, qualifyDataPure, qualifyDataPure]
    exact (image_pureElems h f true true false vs).bind fun r =>
      .pure (fun r : TVal × Bool => (r.1.mapHidden f, r.2)) (.slice r.1, r.2)
  | .map es => by
    rw [TVal.mapHidden, qualifyDataPure, qualifyDataPure]
    refine (image_pureEntries h f es).bind fun r => ?_
    obtain ⟨r, c⟩ := r
    cases c
    · exact .pure (fun r : TVal × Bool => (r.1.mapHidden f, r.2)) (.map es, false)
    · have := setAll_mapHidden f r []
      rw [mapHiddenEntries] at this
      simp only [if_true, this]
      exact .pure (fun r : TVal × Bool => (r.1.mapHidden f, r.2)) (.map _, true)
  | .scalar _ | .package _ | .symbol _ | .mref _ | .signature _ | .spec _
  | .specCopy _ _ | .embed _ | .method _ | .imports | .typeName _ | .reflectType _
  | .goType _ | .goObject _ | .goPackage _ => image_leaf f rfl

theorem image_pureFields (h : Heap) (f : TVal → TVal) (addr changed hidden : Bool) :
    ∀ fs : List (Bool × TVal),
    Image False (fun r : List (Bool × TVal) × Bool => (mapHiddenFields f r.1, r.2))
      (qualifyDataFieldsPure h addr changed hidden fs)
      (qualifyDataFieldsPure h addr changed hidden (mapHiddenFields f fs))
  | [] => by
    rw [mapHiddenFields, qualifyDataFieldsPure]
    exact .pure (fun r : List (Bool × TVal) × Bool => (mapHiddenFields f r.1, r.2)) ([], changed)
  | (true, v) :: fs => by
    rw [mapHiddenFields, if_pos rfl, qualifyDataFieldsPure, qualifyDataFieldsPure]
    refine (image_pure h f addr v).bind fun r => ?_
    obtain ⟨r, c⟩ := r
    simp only [ifacePtr_mapHidden]
    split
    · exact .panic _
    · exact (image_pureFields h f addr (changed || c) hidden fs).bind fun q =>
        .pure (fun r : List (Bool × TVal) × Bool => (mapHiddenFields f r.1, r.2)) ((true, r) :: q.1, q.2)
  | (false, v) :: fs => by
    rw [mapHiddenFields, if_neg (by simp), qualifyDataFieldsPure, qualifyDataFieldsPure]
    split
    · exact .panic _
    · exact (image_pureFields h f addr changed true fs).bind fun q =>
        .pure (fun r : List (Bool × TVal) × Bool => (mapHiddenFields f r.1, r.2)) ((false, v) :: q.1, q.2)

theorem image_pureElems (h : Heap) (f : TVal → TVal) (addr sliceable changed : Bool) :
    ∀ vs : List TVal,
    Image False (fun r : List TVal × Bool => (mapHiddenElems f r.1, r.2))
      (qualifyDataElemsPure h addr sliceable changed vs)
      (qualifyDataElemsPure h addr sliceable changed (mapHiddenElems f vs))
  | [] => by
    rw [mapHiddenElems, qualifyDataElemsPure]
    exact .pure (fun r : List TVal × Bool => (mapHiddenElems f r.1, r.2)) ([], changed)
  | v :: vs => by
    rw [mapHiddenElems, qualifyDataElemsPure, qualifyDataElemsPure]
    refine (image_pure h f addr v).bind fun r => ?_
    obtain ⟨r, c⟩ := r
    simp only [ifacePtr_mapHidden]
    split
    · exact .panic _
    · exact (image_pureElems h f addr sliceable (changed || c) vs).bind fun q =>
        .pure (fun r : List TVal × Bool => (mapHiddenElems f r.1, r.2)) (r :: q.1, q.2)

theorem image_pureEntries (h : Heap) (f : TVal → TVal) : ∀ es : List (TVal × TVal),
    Image False (fun r : List (TVal × TVal) × Bool => (mapHiddenEntries f r.1, r.2))
      (qualifyDataEntriesPure h es) (qualifyDataEntriesPure h (mapHiddenEntries f es))
  | [] => by
    rw [mapHiddenEntries, qualifyDataEntriesPure]
    exact .pure (fun r : List (TVal × TVal) × Bool => (mapHiddenEntries f r.1, r.2)) ([], false)
  | (k, v) :: es => by
    rw [mapHiddenEntries, qualifyDataEntriesPure, qualifyDataEntriesPure]
    refine (Image.self (g := id) fun _ _ _ _ => rfl).bind fun kc => ?_
    obtain ⟨k', ck⟩ := kc
    refine (image_pure h f false v).bind fun r => ?_
    obtain ⟨r, c⟩ := r
    simp only [ifacePtr_mapHidden]
    split
    · exact .panic _
    · exact (image_pureEntries h f es).bind fun q =>
        .pure (fun r : List (TVal × TVal) × Bool => (mapHiddenEntries f r.1, r.2)) ((k', r) :: q.1, ck || c || q.2)
end

/-! ### Unexported fields are like numbers in exported fields -/

theorem isConv_cover (v : TVal) : v.cover.isConv = v.isConv := by cases v <;> rfl

theorem ifacePtr_cover : ∀ v : TVal, v.cover.ifacePtr = v.ifacePtr
  | .ptr v => by
    have ih := ifacePtr_cover v
    cases v <;> first | rfl | simpa [TVal.cover, TVal.ifacePtr] using ih
  | .iface _ _ | .struct _ | .array _ | .slice _ | .map _ | .scalar _ | .package _ | .symbol _ | .mref _
  | .signature _ | .spec _ | .specCopy _ _ | .embed _ | .method _ | .imports | .typeName _ | .reflectType _
  | .goType _ | .goObject _ | .goPackage _ => rfl

theorem inIface_cover (v : TVal) : v.cover.inIface = v.inIface.cover := by cases v <;> rfl

theorem setMapIndex_cover (k v : TVal) : ∀ m : List (TVal × TVal),
    setMapIndex (coverEntries m) k v.cover = coverEntries (setMapIndex m k v)
  | [] => rfl
  | (a, b) :: m => by
    rw [coverEntries, setMapIndex, setMapIndex]
    simp only
    split
    · rfl
    · rw [setMapIndex_cover k v m]; rfl

theorem setAll_cover : ∀ (es m : List (TVal × TVal)),
    (coverEntries es).foldl (fun m e => setMapIndex m e.1 e.2) (coverEntries m)
      = coverEntries (es.foldl (fun m e => setMapIndex m e.1 e.2) m)
  | [], _ => rfl
  | (k, v) :: es, m => by
    rw [coverEntries, List.foldl_cons, List.foldl_cons]
    simp only
    rw [setMapIndex_cover, setAll_cover es]

theorem cover_leaf {h : Heap} {addr : Bool} {v : TVal} (hv : v.leaf = true) :
    Image True (fun r : TVal × Bool => (r.1.cover, r.2)) (qualifyDataPure h addr v)
      (qualifyData h addr v.cover) := by
  rw [(bare_of_leaf hv).2, pure_leaf h addr hv]
  exact Image.self fun i a j ha => by
    rw [(yields_leaf h addr hv i a j ha).2]

mutual
theorem cover_pure (h : Heap) (addr : Bool) : ∀ v : TVal, v.exportedKeys = true →
    Image True (fun r : TVal × Bool => (r.1.cover, r.2)) (qualifyDataPure h addr v)
      (qualifyData h addr v.cover)
  | .iface acc v, hk => by
    cases hc : v.isConv with
    | true => exact cover_leaf (by simpa [TVal.leaf] using hc)
    | false =>
      rw [TVal.cover, pure_iface _ _ _ hc, qualifyData_iface _ _ _ (by rw [isConv_cover, hc])]
      exact (cover_pure h false v (by simpa [TVal.exportedKeys] using hk)).bind fun r => .pure _ (_, _)
  | .ptr v, hk => by
    rw [TVal.cover, qualifyDataPure, qualifyData]
    refine (cover_pure h true v (by simpa [TVal.exportedKeys] using hk)).bind fun r => ?_
    obtain ⟨r, c⟩ := r
    cases c
    · exact .pure (fun r : TVal × Bool => (r.1.cover, r.2)) (.ptr r, false)
    · simp only [if_true, inIface_cover]
      exact .pure (fun r : TVal × Bool => (r.1.cover, r.2)) (.ptr r.inIface, true)
  | .struct fs, hk => by
    rw [TVal.cover, qualifyDataPure, qualifyData]
    exact (cover_pureFields h addr false false fs (by simpa [TVal.exportedKeys] using hk)).bind fun r =>
      .pure (fun r : TVal × Bool => (r.1.cover, r.2)) (.struct r.1, r.2)
  | .array vs, hk => by
    rw [TVal.cover, qualifyDataPure, qualifyData]
    exact (cover_pureElems h addr addr false vs (by simpa [TVal.exportedKeys] using hk)).bind fun r =>
      .pure (fun r : TVal × Bool => (r.1.cover, r.2)) (.array r.1, r.2)
  | .slice vs, hk => by
    rw [TVal.cover, qualifyDataPure, qualifyData]
    exact (cover_pureElems h true true false vs (by simpa [TVal.exportedKeys] using hk)).bind fun r =>
      .pure (fun r : TVal × Bool => (r.1.cover, r.2)) (.slice r.1, r.2)
  | .map es, hk => by
    rw [TVal.cover, qualifyDataPure, qualifyData]
    refine (cover_pureEntries h es (by simpa [TVal.exportedKeys] using hk)).bind fun r => ?_
    obtain ⟨r, c⟩ := r
    cases c
    · exact .pure (fun r : TVal × Bool => (r.1.cover, r.2)) (.map es, false)
    · have := setAll_cover r []
      rw [coverEntries] at this
      simp only [if_true, this]
      exact .pure (fun r : TVal × Bool => (r.1.cover, r.2)) (.map _, true)
  | .scalar _, _ | .package _, _ | .symbol _, _ | .mref _, _ | .signature _, _ | .spec _, _
  | .specCopy _ _, _ | .embed _, _ | .method _, _ | .imports, _ | .typeName _, _ | .reflectType _, _
  | .goType _, _ | .goObject _, _ | .goPackage _, _ => cover_leaf rfl

theorem cover_pureFields (h : Heap) (addr changed hidden : Bool) :
    ∀ fs : List (Bool × TVal), exportedKeysFields fs = true →
    Image True (fun r : List (Bool × TVal) × Bool => (coverFields r.1, r.2))
      (qualifyDataFieldsPure h addr changed hidden fs)
      (qualifyDataFields h addr changed false (coverFields fs))
  | [], _ => by
    rw [coverFields, qualifyDataFieldsPure, qualifyDataFields]
    exact .pure (fun r : List (Bool × TVal) × Bool => (coverFields r.1, r.2)) ([], changed)
  | (true, v) :: fs, hk => by
    simp only [exportedKeysFields, Bool.not_true, Bool.false_or, Bool.and_eq_true] at hk
    rw [coverFields, if_pos rfl, qualifyDataFieldsPure, qualifyDataFields, if_neg (by simp)]
    refine (cover_pure h addr v hk.1).bind fun r => ?_
    obtain ⟨r, c⟩ := r
    simp only [ifacePtr_cover, Bool.not_true, Bool.and_false, Bool.or_false, Bool.false_or]
    by_cases hi : (c && v.ifacePtr) = true
    · rw [if_pos (by simp [hi]), if_pos hi]
      exact .panic _
    · rw [if_neg hi]
      split
      · exact .panics _ _ trivial
      · exact (cover_pureFields h addr (changed || c) hidden fs hk.2).bind fun q =>
          .pure (fun r : List (Bool × TVal) × Bool => (coverFields r.1, r.2)) ((true, r) :: q.1, q.2)
  | (false, v) :: fs, hk => by
    simp only [exportedKeysFields, Bool.not_false, Bool.true_or, Bool.true_and] at hk
    rw [coverFields, if_neg (by simp), qualifyDataFieldsPure]
    cases changed with
    | true => exact .panics _ _ trivial
    | false =>
      have hs : qualifyData h addr (.scalar 0) = pure (.scalar 0, false) := by
        rw [qualifyData] <;> (intros; simp_all)
      rw [qualifyDataFields, if_neg (by simp), if_neg (by simp), hs]
      exact (cover_pureFields h addr false true fs hk).bind (q := fun q => pure ((true, .scalar 0) :: q.1, q.2))
        fun q => .pure (fun r : List (Bool × TVal) × Bool => (coverFields r.1, r.2)) ((false, v) :: q.1, q.2)

theorem cover_pureElems (h : Heap) (addr sliceable changed : Bool) :
    ∀ vs : List TVal, exportedKeysElems vs = true →
    Image True (fun r : List TVal × Bool => (coverElems r.1, r.2))
      (qualifyDataElemsPure h addr sliceable changed vs)
      (qualifyDataElems h addr sliceable changed (coverElems vs))
  | [], _ => by
    rw [coverElems, qualifyDataElemsPure, qualifyDataElems]
    exact .pure (fun r : List TVal × Bool => (coverElems r.1, r.2)) ([], changed)
  | v :: vs, hk => by
    simp only [exportedKeysElems, Bool.and_eq_true] at hk
    rw [coverElems, qualifyDataElemsPure, qualifyDataElems]
    refine (cover_pure h addr v hk.1).bind fun r => ?_
    obtain ⟨r, c⟩ := r
    simp only [ifacePtr_cover]
    split
    · exact .panic _
    · exact (cover_pureElems h addr sliceable (changed || c) vs hk.2).bind fun q =>
        .pure (fun r : List TVal × Bool => (coverElems r.1, r.2)) (r :: q.1, q.2)

theorem cover_pureEntries (h : Heap) : ∀ es : List (TVal × TVal), exportedKeysEntries es = true →
    Image True (fun r : List (TVal × TVal) × Bool => (coverEntries r.1, r.2))
      (qualifyDataEntriesPure h es) (qualifyDataEntries h (coverEntries es))
  | [], _ => by
    rw [coverEntries, qualifyDataEntriesPure, qualifyDataEntries]
    exact .pure (fun r : List (TVal × TVal) × Bool => (coverEntries r.1, r.2)) ([], false)
  | (k, v) :: es, hk => by
    simp only [exportedKeysEntries, Bool.and_eq_true] at hk
    rw [coverEntries, qualifyDataEntriesPure, qualifyDataEntries, pure_exported h false k hk.1.1]
    refine (Image.self (g := id) fun _ _ _ _ => rfl).bind fun kc => ?_
    obtain ⟨k', ck⟩ := kc
    refine (cover_pure h false v hk.1.2).bind fun r => ?_
    obtain ⟨r, c⟩ := r
    simp only [ifacePtr_cover]
    split
    · exact .panic _
    · exact (cover_pureEntries h es hk.2).bind fun q =>
        .pure (fun r : List (TVal × TVal) × Bool => (coverEntries r.1, r.2)) ((k', r) :: q.1, ck || c || q.2)
end

end Gopoet
