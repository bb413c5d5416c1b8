import Verif.Spec.TemplateNaN
import Verif.Proof.DataPure
/-! Template data with NaN in the keys of maps. -/

namespace Gopoet
open Imports

theorem nan_leaf (nan : Nat → Bool) (h : Heap) (addr : Bool) {v : TVal} (hv : v.leaf = true) :
    qualifyDataNaN nan h addr v = qualifyData h addr v := by
  cases v with
  | iface acc v =>
    simp only [TVal.leaf] at hv
    cases v <;> simp only [TVal.isConv, Bool.false_eq_true] at hv <;> rw [qualifyDataNaN]
  | _ =>
    first
    | exact absurd hv Bool.false_ne_true
    | (rw [qualifyDataNaN] <;> (intros; simp_all))

theorem nan_iface (nan : Nat → Bool) (h : Heap) (addr : Bool) (acc : Accepts) {v : TVal} (hv : v.isConv = false) :
    qualifyDataNaN nan h addr (.iface acc v) = (do
      let (v', c) ← qualifyDataNaN nan h false v
      pure (.iface acc v', c)) := by
  cases v <;> simp only [TVal.isConv, Bool.true_eq_false] at hv <;> rw [qualifyDataNaN] <;> simp

/-! ### No NaN in keys -/

mutual
theorem nan_none (nan : Nat → Bool) (h : Heap) (addr : Bool) : ∀ v : TVal, v.noNaNKeys nan = true →
    qualifyDataNaN nan h addr v = qualifyData h addr v
  | .iface acc v, hv => by
    cases hc : v.isConv with
    | true => exact nan_leaf nan h addr (by simpa [TVal.leaf] using hc)
    | false =>
      rw [nan_iface _ _ _ _ hc, qualifyData_iface _ _ _ hc, nan_none nan h false v (by simpa [TVal.noNaNKeys] using hv)]
  | .ptr v, hv => by
    rw [qualifyDataNaN, qualifyData, nan_none nan h true v (by simpa [TVal.noNaNKeys] using hv)]
  | .struct fs, hv => by
    rw [qualifyDataNaN, qualifyData, nan_noneFields nan h addr false false fs (by simpa [TVal.noNaNKeys] using hv)]
  | .array vs, hv => by
    rw [qualifyDataNaN, qualifyData, nan_noneElems nan h addr addr false vs (by simpa [TVal.noNaNKeys] using hv)]
  | .slice vs, hv => by
    rw [qualifyDataNaN, qualifyData, nan_noneElems nan h true true false vs (by simpa [TVal.noNaNKeys] using hv)]
  | .map es, hv => by
    rw [qualifyDataNaN, qualifyData, nan_noneEntries nan h es (by simpa [TVal.noNaNKeys] using hv)]
  | .scalar _, _ | .package _, _ | .symbol _, _ | .mref _, _ | .signature _, _ | .spec _, _
  | .specCopy _ _, _ | .embed _, _ | .method _, _ | .imports, _ | .typeName _, _ | .reflectType _, _
  | .goType _, _ | .goObject _, _ | .goPackage _, _ => nan_leaf nan h addr rfl

theorem nan_noneFields (nan : Nat → Bool) (h : Heap) (addr changed hidden : Bool) : ∀ fs : List (Bool × TVal),
    noNaNKeysFields nan fs = true →
    qualifyDataFieldsNaN nan h addr changed hidden fs = qualifyDataFields h addr changed hidden fs
  | [], _ => by rw [qualifyDataFieldsNaN, qualifyDataFields]
  | (e, v) :: fs, hv => by
    simp only [noNaNKeysFields, Bool.and_eq_true] at hv
    rw [qualifyDataFieldsNaN, qualifyDataFields, nan_none nan h addr v hv.1]
    have ih := fun c d => nan_noneFields nan h addr c d fs hv.2
    simp only [ih]

theorem nan_noneElems (nan : Nat → Bool) (h : Heap) (addr sliceable changed : Bool) : ∀ vs : List TVal,
    noNaNKeysElems nan vs = true →
    qualifyDataElemsNaN nan h addr sliceable changed vs = qualifyDataElems h addr sliceable changed vs
  | [], _ => by rw [qualifyDataElemsNaN, qualifyDataElems]
  | v :: vs, hv => by
    simp only [noNaNKeysElems, Bool.and_eq_true] at hv
    rw [qualifyDataElemsNaN, qualifyDataElems, nan_none nan h addr v hv.1]
    have ih := fun c => nan_noneElems nan h addr sliceable c vs hv.2
    simp only [ih]

theorem nan_noneEntries (nan : Nat → Bool) (h : Heap) : ∀ es : List (TVal × TVal),
    noNaNKeysEntries nan es = true → qualifyDataEntriesNaN nan h es = qualifyDataEntries h es
  | [], _ => by rw [qualifyDataEntriesNaN, qualifyDataEntries]
  | (k, v) :: es, hv => by
    simp only [noNaNKeysEntries, Bool.and_eq_true, Bool.not_eq_true'] at hv
    rw [qualifyDataEntriesNaN, qualifyDataEntries, nan_none nan h false k hv.1.1.2,
      nan_none nan h false v hv.1.2, nan_noneEntries nan h es hv.2]
    simp only [hv.1.1.1, Bool.false_eq_true, if_false]
end

/-! ### Whether a key has NaN in it -/

mutual
theorem hasNaN_of_keyEq (nan : Nat → Bool) : ∀ a b : TVal, a.keyEq b = true → a.hasNaN nan = b.hasNaN nan
  | .scalar a, b, hk => by
    cases b <;> simp only [TVal.keyEq, Bool.false_eq_true, beq_iff_eq] at hk
    rw [hk]
  | .iface _ a, b, hk => by
    cases b <;> simp only [TVal.keyEq, Bool.false_eq_true] at hk
    rw [TVal.hasNaN, TVal.hasNaN]
    exact hasNaN_of_keyEq nan a _ hk
  | .struct a, b, hk => by
    cases b <;> simp only [TVal.keyEq, Bool.false_eq_true] at hk
    exact hasNaN_of_keyEqFields nan a _ hk
  | .array a, b, hk => by
    cases b <;> simp only [TVal.keyEq, Bool.false_eq_true] at hk
    exact hasNaN_of_keyEqElems nan a _ hk
  | .ptr _, b, hk | .slice _, b, hk | .map _, b, hk
  | .package _, b, hk | .symbol _, b, hk | .mref _, b, hk | .signature _, b, hk | .spec _, b, hk
  | .specCopy _ _, b, hk | .embed _, b, hk | .method _, b, hk | .imports, b, hk | .typeName _, b, hk
  | .reflectType _, b, hk | .goType _, b, hk | .goObject _, b, hk | .goPackage _, b, hk => by
    cases b <;> first | rfl | simp [TVal.keyEq] at hk

theorem hasNaN_of_keyEqFields (nan : Nat → Bool) : ∀ a b : List (Bool × TVal), keyEqFields a b = true →
    hasNaNFields nan a = hasNaNFields nan b
  | [], [], _ => rfl
  | [], _ :: _, hk => by simp [keyEqFields] at hk
  | _ :: _, [], hk => by simp [keyEqFields] at hk
  | (_, a) :: l, (_, b) :: l', hk => by
    simp only [keyEqFields, Bool.and_eq_true] at hk
    rw [hasNaNFields, hasNaNFields, hasNaN_of_keyEq nan a b hk.1, hasNaN_of_keyEqFields nan l l' hk.2]

theorem hasNaN_of_keyEqElems (nan : Nat → Bool) : ∀ a b : List TVal, keyEqElems a b = true →
    hasNaNElems nan a = hasNaNElems nan b
  | [], [], _ => rfl
  | [], _ :: _, hk => by simp [keyEqElems] at hk
  | _ :: _, [], hk => by simp [keyEqElems] at hk
  | a :: l, b :: l', hk => by
    simp only [keyEqElems, Bool.and_eq_true] at hk
    rw [hasNaNElems, hasNaNElems, hasNaN_of_keyEq nan a b hk.1, hasNaN_of_keyEqElems nan l l' hk.2]
end

theorem Yields.andThen {α β : Type} {P : α → Prop} {Q : β → Prop} {x : IM α} {f : α → IM β} (hx : Yields P x)
    (h : ∀ a, P a → Yields Q (f a)) : Yields Q (x >>= f) := by
  intro i b j hb
  obtain ⟨a, k, h1, h2⟩ := IM.bind_eq_ok hb
  exact h a (hx i a k h1) k b j h2

theorem Yields.panic {α : Type} {P : α → Prop} : Yields P IM.panic := by
  intro i a j h
  simp [IM.panic] at h

theorem inIface_hasNaN (nan : Nat → Bool) (v : TVal) : v.inIface.hasNaN nan = v.hasNaN nan := by
  cases v <;> rfl

theorem hasNaN_leaf (nan : Nat → Bool) (h : Heap) (addr : Bool) {v : TVal} (hv : v.leaf = true) :
    Yields (fun r => r.1.hasNaN nan = v.hasNaN nan) (qualifyData h addr v) := by
  cases v with
  | iface acc v =>
    simp only [TVal.leaf] at hv
    cases v <;> simp only [TVal.isConv, Bool.false_eq_true] at hv <;> rw [qualifyData]
    · exact .bind fun _ => .bind fun _ => .ite (.pure rfl) (.pure rfl)
    · exact .bind fun _ => .bind fun _ => .ite (.pure rfl) (.pure rfl)
    · exact .bind fun _ => .bind fun _ => .ite (.pure rfl) (.pure rfl)
    · refine .bind fun sm => ?_
      cases sm <;> exact .bind fun _ => .ite (.pure rfl) (.pure rfl)
    · exact .bind fun _ => .bind fun _ => .ite (.pure rfl) (.pure rfl)
  | package p => rw [qualifyData]; exact .bind fun _ => .ite (.pure rfl) (.pure rfl)
  | symbol s => rw [qualifyData]; exact .bind fun _ => .pure rfl
  | mref s => rw [qualifyData]; exact .bind fun _ => .pure rfl
  | signature s => rw [qualifyData]; exact .bind fun _ => .pure rfl
  | embed s => rw [qualifyData]; exact .bind fun _ => .pure rfl
  | method s => rw [qualifyData]; exact .bind fun _ => .pure rfl
  | spec r =>
    rw [qualifyData]
    refine .bind fun q => ?_
    cases q with
    | none => exact .pure rfl
    | some f => exact .bind fun _ => .bind fun _ => .ite (.pure rfl) (.pure rfl)
  | specCopy r n => rw [qualifyData]; exact .bind fun _ => .ite (.pure rfl) (.pure rfl)
  | _ =>
    first
    | exact absurd hv Bool.false_ne_true
    | (rw [qualifyData] <;> first | exact .pure rfl | (intros; simp_all))

mutual
theorem hasNaN_kept (nan : Nat → Bool) (h : Heap) (addr : Bool) : ∀ v : TVal,
    Yields (fun r => r.1.hasNaN nan = v.hasNaN nan) (qualifyDataNaN nan h addr v)
  | .iface acc v => by
    cases hc : v.isConv with
    | true =>
      have hl : (TVal.iface acc v).leaf = true := by simpa [TVal.leaf] using hc
      rw [nan_leaf nan h addr hl]
      exact hasNaN_leaf nan h addr hl
    | false =>
      rw [nan_iface _ _ _ _ hc]
      refine .andThen (hasNaN_kept nan h false v) fun r hr => .pure ?_
      simpa only [TVal.hasNaN] using hr
  | .ptr v => by rw [qualifyDataNaN]; exact .bind fun _ => .pure rfl
  | .struct fs => by
    rw [qualifyDataNaN]
    refine .andThen (hasNaN_keptFields nan h addr false false fs) fun r hr => .pure ?_
    simpa only [TVal.hasNaN] using hr
  | .array vs => by
    rw [qualifyDataNaN]
    refine .andThen (hasNaN_keptElems nan h addr addr false vs) fun r hr => .pure ?_
    simpa only [TVal.hasNaN] using hr
  | .slice vs => by rw [qualifyDataNaN]; exact .bind fun _ => .pure rfl
  | .map es => by rw [qualifyDataNaN]; exact .bind fun _ => .ite (.pure rfl) (.pure rfl)
  | .scalar _ | .package _ | .symbol _ | .mref _ | .signature _ | .spec _
  | .specCopy _ _ | .embed _ | .method _ | .imports | .typeName _ | .reflectType _
  | .goType _ | .goObject _ | .goPackage _ => by
    rw [nan_leaf nan h addr rfl]
    exact hasNaN_leaf nan h addr rfl

theorem hasNaN_keptFields (nan : Nat → Bool) (h : Heap) (addr changed hidden : Bool) : ∀ fs : List (Bool × TVal),
    Yields (fun r => hasNaNFields nan r.1 = hasNaNFields nan fs) (qualifyDataFieldsNaN nan h addr changed hidden fs)
  | [] => by rw [qualifyDataFieldsNaN]; exact .pure rfl
  | (e, v) :: fs => by
    rw [qualifyDataFieldsNaN]
    refine .ite .panic (.andThen (hasNaN_kept nan h addr v) fun r hr => .ite .panic
      (.andThen (hasNaN_keptFields nan h addr _ _ fs) fun q hq => .pure ?_))
    simp only [hasNaNFields, hr, hq]

theorem hasNaN_keptElems (nan : Nat → Bool) (h : Heap) (addr sliceable changed : Bool) : ∀ vs : List TVal,
    Yields (fun r => hasNaNElems nan r.1 = hasNaNElems nan vs) (qualifyDataElemsNaN nan h addr sliceable changed vs)
  | [] => by rw [qualifyDataElemsNaN]; exact .pure rfl
  | v :: vs => by
    rw [qualifyDataElemsNaN]
    refine .andThen (hasNaN_kept nan h addr v) fun r hr => .ite .panic
      (.andThen (hasNaN_keptElems nan h addr _ _ vs) fun q hq => .pure ?_)
    simp only [hasNaNElems, hr, hq]
end

/-! ### The entries of the result -/

theorem key_of_mem_setMapIndex {k v : TVal} {e : TVal × TVal} : ∀ {m : List (TVal × TVal)},
    e ∈ setMapIndex m k v → e.1 = k ∨ ∃ x ∈ m, x.1 = e.1
  | [], he => by
    rw [setMapIndex, List.mem_singleton] at he
    exact .inl (by rw [he])
  | x :: m, he => by
    rw [setMapIndex] at he
    split at he
    · rcases List.mem_cons.1 he with rfl | he
      · exact .inr ⟨x, List.mem_cons_self, rfl⟩
      · exact .inr ⟨e, List.mem_cons_of_mem _ he, rfl⟩
    · rcases List.mem_cons.1 he with rfl | he
      · exact .inr ⟨_, List.mem_cons_self, rfl⟩
      · rcases key_of_mem_setMapIndex he with h | ⟨y, hy, h⟩
        · exact .inl h
        · exact .inr ⟨y, List.mem_cons_of_mem _ hy, h⟩

theorem key_of_mem_setAll {e : TVal × TVal} : ∀ {es m : List (TVal × TVal)},
    e ∈ es.foldl (fun m e => setMapIndex m e.1 e.2) m → ∃ x ∈ es ++ m, x.1 = e.1
  | [], _, he => ⟨e, he, rfl⟩
  | x :: es, m, he => by
    obtain ⟨y, hy, h⟩ := key_of_mem_setAll (es := es) he
    rcases List.mem_append.1 hy with hy | hy
    · exact ⟨y, List.mem_append_left _ (List.mem_cons_of_mem _ hy), h⟩
    · rcases key_of_mem_setMapIndex hy with h' | ⟨z, hz, h'⟩
      · exact ⟨x, List.mem_append_left _ List.mem_cons_self, h'.symm.trans h⟩
      · exact ⟨z, List.mem_append_right _ hz, h'.trans h⟩

/-- None of the keys has NaN in it. -/
def NoNaN (nan : Nat → Bool) (es : List (TVal × TVal)) : Prop := ∀ e ∈ es, e.1.hasNaN nan = false

theorem noNaN_entries (nan : Nat → Bool) (h : Heap) : ∀ es : List (TVal × TVal),
    Yields (fun r => NoNaN nan r.1) (qualifyDataEntriesNaN nan h es)
  | [] => by
    rw [qualifyDataEntriesNaN]
    exact .pure fun _ he => by simp at he
  | (k, v) :: es => by
    rw [qualifyDataEntriesNaN]
    refine .andThen (hasNaN_kept nan h false k) fun r hr => ?_
    cases hk : k.hasNaN nan with
    | true =>
      simp only [if_true]
      exact .ite .panic (.andThen (noNaN_entries nan h es) fun q hq => .pure hq)
    | false =>
      simp only [Bool.false_eq_true, if_false]
      refine .bind fun w => .ite .panic (.andThen (noNaN_entries nan h es) fun q hq => .pure ?_)
      intro e he
      rcases List.mem_cons.1 he with rfl | he
      · exact hr.trans hk
      · exact hq e he

theorem noNaN_setAll {nan : Nat → Bool} {es : List (TVal × TVal)} (h : NoNaN nan es) :
    NoNaN nan (es.foldl (fun m e => setMapIndex m e.1 e.2) []) := by
  intro e he
  obtain ⟨x, hx, hxe⟩ := key_of_mem_setAll he
  rw [List.append_nil] at hx
  rw [← hxe]
  exact h x hx

/-! ### Other values at keys with NaN -/

theorem isConv_mapNaN (nan : Nat → Bool) (f : TVal → TVal) (v : TVal) : (v.mapNaN nan f).isConv = v.isConv := by
  cases v <;> rfl

theorem ifacePtr_mapNaN (nan : Nat → Bool) (f : TVal → TVal) : ∀ v : TVal, (v.mapNaN nan f).ifacePtr = v.ifacePtr
  | .ptr v => by
    have ih := ifacePtr_mapNaN nan f v
    cases v <;> first | rfl | simpa [TVal.mapNaN, TVal.ifacePtr] using ih
  | .iface _ _ | .struct _ | .array _ | .slice _ | .map _ | .scalar _ | .package _ | .symbol _ | .mref _
  | .signature _ | .spec _ | .specCopy _ _ | .embed _ | .method _ | .imports | .typeName _ | .reflectType _
  | .goType _ | .goObject _ | .goPackage _ => rfl

theorem inIface_mapNaN (nan : Nat → Bool) (f : TVal → TVal) (v : TVal) :
    (v.mapNaN nan f).inIface = v.inIface.mapNaN nan f := by
  cases v <;> rfl

theorem mapNaN_leaf (nan : Nat → Bool) (h : Heap) (addr : Bool) {v : TVal} (hv : v.leaf = true) :
    Yields (fun r => ∀ f, r.1.mapNaN nan f = r.1) (qualifyData h addr v) := by
  cases v with
  | iface acc v =>
    simp only [TVal.leaf] at hv
    cases v <;> simp only [TVal.isConv, Bool.false_eq_true] at hv <;> rw [qualifyData]
    · exact .bind fun _ => .bind fun _ => .ite (.pure fun _ => rfl) (.pure fun _ => rfl)
    · exact .bind fun _ => .bind fun _ => .ite (.pure fun _ => rfl) (.pure fun _ => rfl)
    · exact .bind fun _ => .bind fun _ => .ite (.pure fun _ => rfl) (.pure fun _ => rfl)
    · refine .bind fun sm => ?_
      cases sm <;> exact .bind fun _ => .ite (.pure fun _ => rfl) (.pure fun _ => rfl)
    · exact .bind fun _ => .bind fun _ => .ite (.pure fun _ => rfl) (.pure fun _ => rfl)
  | package p => rw [qualifyData]; exact .bind fun _ => .ite (.pure fun _ => rfl) (.pure fun _ => rfl)
  | symbol s => rw [qualifyData]; exact .bind fun _ => .pure fun _ => rfl
  | mref s => rw [qualifyData]; exact .bind fun _ => .pure fun _ => rfl
  | signature s => rw [qualifyData]; exact .bind fun _ => .pure fun _ => rfl
  | embed s => rw [qualifyData]; exact .bind fun _ => .pure fun _ => rfl
  | method s => rw [qualifyData]; exact .bind fun _ => .pure fun _ => rfl
  | spec r =>
    rw [qualifyData]
    refine .bind fun q => ?_
    cases q with
    | none => exact .pure fun _ => rfl
    | some f => exact .bind fun _ => .bind fun _ => .ite (.pure fun _ => rfl) (.pure fun _ => rfl)
  | specCopy r n => rw [qualifyData]; exact .bind fun _ => .ite (.pure fun _ => rfl) (.pure fun _ => rfl)
  | _ =>
    first
    | exact absurd hv Bool.false_ne_true
    | (rw [qualifyData] <;> first | exact .pure fun _ => rfl | (intros; simp_all))

theorem mapNaN_of_leaf (nan : Nat → Bool) (f : TVal → TVal) {v : TVal} (hv : v.leaf = true) : v.mapNaN nan f = v := by
  cases v with
  | iface acc v =>
    simp only [TVal.leaf] at hv
    cases v <;> simp only [TVal.isConv, Bool.false_eq_true] at hv <;> rfl
  | _ => first | rfl | simp [TVal.leaf] at hv

/-- `x` and `y` do the same to the imports, and have related results. -/
def Abreast {α β : Type} (R : α → β → Prop) (x : IM α) (y : IM β) : Prop := ∀ i, OutcomesRelated R (x i) (y i)

namespace Abreast
variable {α β γ δ : Type}

theorem pure {R : α → β → Prop} {a : α} {b : β} (h : R a b) : Abreast R (Pure.pure a) (Pure.pure b) :=
  fun i => .ok i h

theorem panic {R : α → β → Prop} : Abreast R IM.panic IM.panic := fun i => .panic i

theorem bind {R : α → β → Prop} {S : γ → δ → Prop} {x : IM α} {y : IM β} {p : α → IM γ} {q : β → IM δ}
    (h : Abreast R x y) (hf : ∀ a b, R a b → Abreast S (p a) (q b)) : Abreast S (x >>= p) (y >>= q) := by
  intro i
  have h := h i
  rw [IM.bind_apply, IM.bind_apply]
  rcases hx : x i with ⟨a | _ | _, j⟩ <;> rcases hy : y i with ⟨b | _ | _, k⟩ <;> rw [hx, hy] at h <;> cases h
  · exact hf a b ‹_› j
  · exact .panic _
  · exact .hang _

theorem same {P : α → Prop} {x : IM α} (h : Yields P x) : Abreast (fun a b => a = b ∧ P a) x x := by
  intro i
  rcases hx : x i with ⟨a | _ | _, j⟩
  · exact .ok _ ⟨rfl, h i a j hx⟩
  · exact .panic _
  · exact .hang _

theorem mono {R S : α → β → Prop} {x : IM α} {y : IM β} (h : Abreast R x y) (hR : ∀ a b, R a b → S a b) :
    Abreast S x y := by
  intro i
  have h := h i
  rcases hx : x i with ⟨a | _ | _, j⟩ <;> rcases hy : y i with ⟨b | _ | _, k⟩ <;> rw [hx, hy] at h <;> cases h
  · exact .ok _ (hR _ _ ‹_›)
  · exact .panic _
  · exact .hang _

theorem ite {R : α → β → Prop} {c : Prop} [Decidable c] {x x' : IM α} {y y' : IM β} (h : Abreast R x y)
    (h' : Abreast R x' y') : Abreast R (if c then x else x') (if c then y else y') := by split <;> assumption

theorem eq_map {g : α → β} {x : IM α} {y : IM β} (h : Abreast (fun a b => b = g a) x y) (i : Imports) :
    y i = ((x i).1.bind fun a => .ok (g a), (x i).2) := by
  have h := h i
  rcases hx : x i with ⟨a | _ | _, j⟩ <;> rcases hy : y i with ⟨b | _ | _, k⟩ <;> rw [hx, hy] at h <;> cases h
  · rename_i h
    rw [h]; rfl
  · rfl
  · rfl

end Abreast

theorem setMapIndex_mapNaN (nan : Nat → Bool) (f : TVal → TVal) (k v : TVal) (hk : k.hasNaN nan = false) :
    ∀ m : List (TVal × TVal),
    setMapIndex (mapNaNEntries nan f m) k (v.mapNaN nan f) = mapNaNEntries nan f (setMapIndex m k v)
  | [] => by simp [setMapIndex, mapNaNEntries, hk]
  | (a, b) :: m => by
    rw [mapNaNEntries, setMapIndex, setMapIndex]
    simp only
    split
    · rename_i hab
      have := hasNaN_of_keyEq nan a k hab
      rw [mapNaNEntries, this, hk]
      simp
    · rw [setMapIndex_mapNaN nan f k v hk m, mapNaNEntries]

theorem setAll_mapNaN (nan : Nat → Bool) (f : TVal → TVal) : ∀ (es m : List (TVal × TVal)), NoNaN nan es →
    (mapNaNEntries nan f es).foldl (fun m e => setMapIndex m e.1 e.2) (mapNaNEntries nan f m)
      = mapNaNEntries nan f (es.foldl (fun m e => setMapIndex m e.1 e.2) m)
  | [], _, _ => rfl
  | (k, v) :: es, m, hn => by
    have hk := hn (k, v) List.mem_cons_self
    rw [mapNaNEntries, List.foldl_cons, List.foldl_cons]
    simp only at hk ⊢
    rw [hk, if_neg (by simp), setMapIndex_mapNaN nan f k v hk,
      setAll_mapNaN nan f es _ fun e he => hn e (List.mem_cons_of_mem _ he)]

mutual
theorem mapNaN_abreast (nan : Nat → Bool) (h : Heap) (f : TVal → TVal) (addr : Bool) : ∀ v : TVal,
    Abreast (fun a b => b = (a.1.mapNaN nan f, a.2)) (qualifyDataNaN nan h addr v)
      (qualifyDataNaN nan h addr (v.mapNaN nan f))
  | .iface acc v => by
    cases hc : v.isConv with
    | true =>
      have hl : (TVal.iface acc v).leaf = true := by simpa [TVal.leaf] using hc
      rw [mapNaN_of_leaf nan f hl, nan_leaf nan h addr hl]
      exact (Abreast.same (mapNaN_leaf nan h addr hl)).mono fun a b hab => by rw [← hab.1, hab.2 f]
    | false =>
      rw [TVal.mapNaN, nan_iface _ _ _ _ hc, nan_iface _ _ _ _ (by rw [isConv_mapNaN, hc])]
      exact (mapNaN_abreast nan h f false v).bind fun a b hab => .pure (by rw [hab, TVal.mapNaN])
  | .ptr v => by
    rw [TVal.mapNaN, qualifyDataNaN, qualifyDataNaN]
    refine (mapNaN_abreast nan h f true v).bind fun a b hab => ?_
    subst hab
    obtain ⟨a, c⟩ := a
    cases c
    · exact .pure rfl
    · simp only [if_true, inIface_mapNaN]
      exact .pure rfl
  | .struct fs => by
    rw [TVal.mapNaN, qualifyDataNaN, qualifyDataNaN]
    exact (mapNaN_abreastFields nan h f addr false false fs).bind fun a b hab => .pure (by rw [hab, TVal.mapNaN])
  | .array vs => by
    rw [TVal.mapNaN, qualifyDataNaN, qualifyDataNaN]
    exact (mapNaN_abreastElems nan h f addr addr false vs).bind fun a b hab => .pure (by rw [hab, TVal.mapNaN])
  | .slice vs => by
    rw [TVal.mapNaN, qualifyDataNaN, qualifyDataNaN]
    exact (mapNaN_abreastElems nan h f true true false vs).bind fun a b hab => .pure (by rw [hab, TVal.mapNaN])
  | .map es => by
    rw [TVal.mapNaN, qualifyDataNaN, qualifyDataNaN]
    refine (mapNaN_abreastEntries nan h f es).bind fun a b hab => ?_
    obtain ⟨rfl, hn⟩ := hab
    obtain ⟨a, c⟩ := a
    cases c
    · exact .pure rfl
    · have := setAll_mapNaN nan f a [] hn
      rw [mapNaNEntries] at this
      simp only [if_true, this]
      exact .pure rfl
  | .scalar _ | .package _ | .symbol _ | .mref _ | .signature _ | .spec _
  | .specCopy _ _ | .embed _ | .method _ | .imports | .typeName _ | .reflectType _
  | .goType _ | .goObject _ | .goPackage _ => by
    rw [mapNaN_of_leaf nan f rfl, nan_leaf nan h addr rfl]
    exact (Abreast.same (mapNaN_leaf nan h addr rfl)).mono fun a b hab => by rw [← hab.1, hab.2 f]

theorem mapNaN_abreastFields (nan : Nat → Bool) (h : Heap) (f : TVal → TVal) (addr changed hidden : Bool) :
    ∀ fs : List (Bool × TVal),
    Abreast (fun a b => b = (mapNaNFields nan f a.1, a.2)) (qualifyDataFieldsNaN nan h addr changed hidden fs)
      (qualifyDataFieldsNaN nan h addr changed hidden (mapNaNFields nan f fs))
  | [] => by
    rw [mapNaNFields, qualifyDataFieldsNaN]
    exact .pure rfl
  | (e, v) :: fs => by
    rw [mapNaNFields, qualifyDataFieldsNaN, qualifyDataFieldsNaN]
    refine .ite .panic ((mapNaN_abreast nan h f addr v).bind fun a b hab => ?_)
    subst hab
    simp only [ifacePtr_mapNaN]
    refine .ite .panic ((mapNaN_abreastFields nan h f addr _ _ fs).bind fun q r hqr => .pure ?_)
    rw [hqr, mapNaNFields]

theorem mapNaN_abreastElems (nan : Nat → Bool) (h : Heap) (f : TVal → TVal) (addr sliceable changed : Bool) :
    ∀ vs : List TVal,
    Abreast (fun a b => b = (mapNaNElems nan f a.1, a.2)) (qualifyDataElemsNaN nan h addr sliceable changed vs)
      (qualifyDataElemsNaN nan h addr sliceable changed (mapNaNElems nan f vs))
  | [] => by
    rw [mapNaNElems, qualifyDataElemsNaN]
    exact .pure rfl
  | v :: vs => by
    rw [mapNaNElems, qualifyDataElemsNaN, qualifyDataElemsNaN]
    refine (mapNaN_abreast nan h f addr v).bind fun a b hab => ?_
    subst hab
    simp only [ifacePtr_mapNaN]
    refine .ite .panic ((mapNaN_abreastElems nan h f addr _ _ vs).bind fun q r hqr => .pure ?_)
    rw [hqr, mapNaNElems]

theorem mapNaN_abreastEntries (nan : Nat → Bool) (h : Heap) (f : TVal → TVal) : ∀ es : List (TVal × TVal),
    Abreast (fun a b => b = (mapNaNEntries nan f a.1, a.2) ∧ NoNaN nan a.1) (qualifyDataEntriesNaN nan h es)
      (qualifyDataEntriesNaN nan h (mapNaNEntries nan f es))
  | [] => by
    rw [mapNaNEntries, qualifyDataEntriesNaN]
    exact .pure ⟨rfl, fun _ he => by simp at he⟩
  | (k, v) :: es => by
    rw [mapNaNEntries, qualifyDataEntriesNaN, qualifyDataEntriesNaN]
    refine (Abreast.same (hasNaN_kept nan h false k)).bind fun a b hab => ?_
    obtain ⟨rfl, hk'⟩ := hab
    cases hk : k.hasNaN nan with
    | true =>
      simp only [if_true]
      refine .ite .panic ((mapNaN_abreastEntries nan h f es).bind fun q r hqr => .pure ?_)
      obtain ⟨rfl, hn⟩ := hqr
      exact ⟨rfl, hn⟩
    | false =>
      simp only [Bool.false_eq_true, if_false]
      refine (mapNaN_abreast nan h f false v).bind fun x y hxy => ?_
      subst hxy
      simp only [ifacePtr_mapNaN]
      refine .ite .panic ((mapNaN_abreastEntries nan h f es).bind fun q r hqr => .pure ?_)
      obtain ⟨rfl, hn⟩ := hqr
      refine ⟨?_, ?_⟩
      · simp only [mapNaNEntries, hk', hk, Bool.false_eq_true, if_false]
      · intro e he
        rcases List.mem_cons.1 he with rfl | he
        · exact hk'.trans hk
        · exact hn e he
end

end Gopoet
