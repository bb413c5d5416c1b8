import Verif.Proof.DataMaps
import Verif.Proof.SettledData
/-!
# Qualification of template data in memory computes what qualification of trees computes
-/

namespace Gopoet
open MM Imports

/-! ## The loops on trees -/

theorem qualifyDataElems_eq (h : Heap) (shape : Shape) (addr : Bool) (hh : ∀ n, shape.hides n = false) :
    ∀ (vs : List TVal) (changed : Bool) (idx : Nat),
      qualifyDataElems h addr (shape.sliceable addr) changed vs = partsQ shape addr (qualifyData h addr) changed idx vs
  | [], changed, idx => by rw [qualifyDataElems, partsQ]
  | v :: vs, changed, idx => by
    have hb : ∀ n, shape.hidesBelow n = false := by
      intro n
      induction n with
      | zero => rfl
      | succ n ih => rw [Shape.hidesBelow, ih, hh, Bool.or_self]
    rw [qualifyDataElems, partsQ, hh idx, hb]
    simp only [Bool.false_and, Bool.false_eq_true, if_false, Bool.and_false, Bool.false_or, Bool.or_false]
    funext i
    simp only [IM.bind_apply]
    rcases qualifyData h addr v i with ⟨⟨v', c⟩ | _ | _, i'⟩
    · dsimp only
      rw [qualifyDataElems_eq h shape addr hh vs (changed || c) (idx + 1)]
    · rfl
    · rfl

theorem qualifyDataFields_eq (h : Heap) (addr : Bool) :
    ∀ (fs : List (Bool × TVal)) (pre : List Bool) (changed : Bool),
      qualifyDataFields h addr changed (Shape.hidesBelow (.struct (pre ++ fs.map (·.1))) pre.length) fs =
        (partsQ (.struct (pre ++ fs.map (·.1))) addr (qualifyData h addr) changed pre.length (fs.map (·.2)) >>=
          fun x => pure ((fs.map (·.1)).zip x.1, x.2))
  | [], pre, changed => by
    rw [qualifyDataFields]
    rfl
  | (e, v) :: fs, pre, changed => by
    have hid : Shape.hides (.struct (pre ++ ((e, v) :: fs).map (·.1))) pre.length = !e := by
      cases e <;> simp [Shape.hides]
    have ih : ∀ c, _ := fun c => qualifyDataFields_eq h addr fs (pre ++ [e]) c
    simp only [List.map_cons] at hid ⊢
    rw [qualifyDataFields, partsQ, hid]
    simp only [List.append_assoc, List.singleton_append, List.length_append, List.length_singleton] at ih
    rw [Shape.hidesBelow, hid] at ih
    by_cases hp : (!e && !addr) = true
    · rw [if_pos hp]
      funext i
      simp only [hp, if_true]
      rfl
    · rw [if_neg hp]
      funext i
      simp only [IM.bind_apply, if_neg hp]
      rcases qualifyData h addr v i with ⟨⟨v', c⟩ | _ | _, i'⟩
      · dsimp only
        rw [Shape.hidesBelow, hid]
        simp only [Shape.sliceable, Bool.not_true, Bool.false_or]
        split
        · rfl
        · rw [IM.bind_apply, ih]
          simp only [IM.bind_apply]
          rcases hX : partsQ (.struct (pre ++ e :: fs.map (·.1))) addr (qualifyData h addr) (changed || c) (pre.length + 1)
            (fs.map (·.2)) i' with ⟨x | _ | _, i''⟩
          · simp only [hX]
            rfl
          · simp only [hX]
          · simp only [hX]
      · rfl
      · rfl

theorem qualifyDataEntries_eq (h : Heap) : ∀ es, qualifyDataEntries h es = entriesQ (qualifyData h false) es
  | [] => by rw [qualifyDataEntries, entriesQ]
  | (k, v) :: es => by
    rw [qualifyDataEntries, entriesQ, qualifyDataEntries_eq h es]

theorem partsQ_length {shape : Shape} {addr : Bool} {Q : TVal → IM (TVal × Bool)} : ∀ (ts : List TVal) (c : Bool)
    (idx : Nat) {i j : Imports} {x : List TVal × Bool}, partsQ shape addr Q c idx ts i = (.ok x, j) →
      x.1.length = ts.length
  | [], c, idx, i, j, x, h => by
    obtain ⟨rfl, -⟩ := pure_eq_ok h
    rfl
  | t :: ts, c, idx, i, j, x, h => by
    rw [partsQ] at h
    split at h
    · cases h
    · obtain ⟨a, i1, -, h⟩ := IM.bind_eq_ok h
      split at h
      · cases h
      · obtain ⟨y, i2, hy, h⟩ := IM.bind_eq_ok h
        obtain ⟨rfl, -⟩ := pure_eq_ok h
        simp [partsQ_length ts _ _ hy]

/-! ## Keys stay keys -/

/-- Qualification gives a key that is a value. -/
def KeepsValue (Q : TVal → IM (TVal × Bool)) (k : TVal) : Prop := ∀ i r j, Q k i = (.ok r, j) → r.1.valueKey = true

theorem keepsValue_parts {shape : Shape} {addr : Bool} {Q : TVal → IM (TVal × Bool)} : ∀ (ts : List TVal),
    (∀ t ∈ ts, KeepsValue Q t) → ∀ (c : Bool) (idx : Nat) {i j : Imports} {x : List TVal × Bool},
      partsQ shape addr Q c idx ts i = (.ok x, j) → ∀ t ∈ x.1, t.valueKey = true
  | [], _, c, idx, i, j, x, h => by
    obtain ⟨rfl, -⟩ := pure_eq_ok h
    simp
  | t :: ts, hQ, c, idx, i, j, x, h => by
    rw [partsQ] at h
    split at h
    · cases h
    · obtain ⟨a, i1, ha, h⟩ := IM.bind_eq_ok h
      split at h
      · cases h
      · obtain ⟨y, i2, hy, h⟩ := IM.bind_eq_ok h
        obtain ⟨rfl, -⟩ := pure_eq_ok h
        simp only [List.mem_cons, forall_eq_or_imp]
        exact ⟨hQ t (by simp) _ _ _ ha, keepsValue_parts ts (fun t ht => hQ t (by simp [ht])) _ _ hy⟩

theorem valueKeyElems_iff : ∀ l : List TVal, valueKeyElems l = true ↔ ∀ t ∈ l, t.valueKey = true
  | [] => by simp [valueKeyElems]
  | t :: l => by simp [valueKeyElems, valueKeyElems_iff l]

theorem valueKeyFields_zip : ∀ (e : List Bool) (l : List TVal), (∀ t ∈ l, t.valueKey = true) →
    valueKeyFields (e.zip l) = true
  | [], _, _ => by simp [valueKeyFields]
  | _ :: _, [], _ => by simp [valueKeyFields]
  | _ :: e, t :: l, h => by
    simp only [List.zip_cons_cons, valueKeyFields, Bool.and_eq_true]
    exact ⟨h t (by simp), valueKeyFields_zip e l fun t ht => h t (by simp [ht])⟩

theorem qualifyDataFields_start (h : Heap) (addr : Bool) (fs : List (Bool × TVal)) :
    qualifyDataFields h addr false false fs =
      (partsQ (.struct (fs.map (·.1))) addr (qualifyData h addr) false 0 (fs.map (·.2)) >>=
        fun x => pure ((fs.map (·.1)).zip x.1, x.2)) := qualifyDataFields_eq h addr fs [] false

mutual
theorem keepsValue (h : Heap) : ∀ (k : TVal) (addr : Bool), k.valueKey = true → KeepsValue (qualifyData h addr) k
  | .iface acc v, addr, hk => by
    intro i r j hr
    rw [TVal.valueKey] at hk
    have ih := keepsValue h v false hk
    have key : ((do
        let (v', c) ← qualifyData h false v
        pure (.iface acc v', c)) : IM (TVal × Bool)) i = (.ok r, j) → r.1.valueKey = true := by
      intro hr
      obtain ⟨⟨v', c⟩, i1, h1, h2⟩ := IM.bind_eq_ok hr
      obtain ⟨rfl, -⟩ := pure_eq_ok h2
      rw [TVal.valueKey]
      exact ih _ _ _ h1
    cases v <;> simp only [TVal.valueKey, Bool.false_eq_true] at hk <;> rw [qualifyData] at hr <;> first
      | exact key hr
      | (intros; contradiction)
  | .struct fs, addr, hk => by
    intro i r j hr
    rw [TVal.valueKey] at hk
    rw [qualifyData, qualifyDataFields_start] at hr
    obtain ⟨x, i1, h1, h2⟩ := IM.bind_eq_ok hr
    obtain ⟨y, i2, h3, h4⟩ := IM.bind_eq_ok h1
    obtain ⟨rfl, -⟩ := pure_eq_ok h4
    obtain ⟨rfl, -⟩ := pure_eq_ok h2
    rw [TVal.valueKey]
    exact valueKeyFields_zip _ _ (keepsValue_parts _ (fun t ht => keepsValueFields h fs hk t ht addr) _ _ h3)
  | .array vs, addr, hk => by
    intro i r j hr
    rw [TVal.valueKey] at hk
    rw [qualifyData] at hr
    have := qualifyDataElems_eq h .array addr (fun _ => rfl) vs false 0
    rw [Shape.sliceable] at this
    rw [this] at hr
    obtain ⟨x, i1, h1, h2⟩ := IM.bind_eq_ok hr
    obtain ⟨rfl, -⟩ := pure_eq_ok h2
    rw [TVal.valueKey, valueKeyElems_iff]
    exact keepsValue_parts _ (fun t ht => keepsValueElems h vs hk t ht addr) _ _ h1
  | .scalar _, addr, hk => by
    intro i r j hr
    rw [qualifyData] at hr
    · obtain ⟨rfl, -⟩ := pure_eq_ok hr
      rfl
    all_goals (intros; contradiction)
  | .package _, addr, hk => by
    intro i r j hr
    rw [qualifyData] at hr
    obtain ⟨x, i1, h1, h2⟩ := IM.bind_eq_ok hr
    split at h2 <;> (obtain ⟨rfl, -⟩ := pure_eq_ok h2; rfl)
  | .symbol _, addr, hk | .mref _, addr, hk | .embed _, addr, hk => by
    intro i r j hr
    rw [qualifyData] at hr
    obtain ⟨x, i1, h1, h2⟩ := IM.bind_eq_ok hr
    obtain ⟨rfl, -⟩ := pure_eq_ok h2
    rfl
  | .ptr _, _, hk | .signature _, _, hk | .spec _, _, hk | .specCopy _ _, _, hk | .method _, _, hk
  | .imports, _, hk | .typeName _, _, hk | .reflectType _, _, hk | .goType _, _, hk | .goObject _, _, hk
  | .goPackage _, _, hk | .slice _, _, hk | .map _, _, hk => by simp [TVal.valueKey] at hk
theorem keepsValueFields (h : Heap) : ∀ (fs : List (Bool × TVal)), valueKeyFields fs = true → ∀ t ∈ fs.map (·.2),
    ∀ addr, KeepsValue (qualifyData h addr) t
  | [], _, t, ht => by simp at ht
  | (_, v) :: fs, hk, t, ht => by
    simp only [valueKeyFields, Bool.and_eq_true] at hk
    simp only [List.map_cons, List.mem_cons] at ht
    rcases ht with ht | ht
    · rw [ht]
      exact fun addr => keepsValue h v addr hk.1
    · exact keepsValueFields h fs hk.2 t ht
theorem keepsValueElems (h : Heap) : ∀ (vs : List TVal), valueKeyElems vs = true → ∀ t ∈ vs,
    ∀ addr, KeepsValue (qualifyData h addr) t
  | [], _, t, ht => by simp at ht
  | v :: vs, hk, t, ht => by
    simp only [valueKeyElems, Bool.and_eq_true] at hk
    simp only [List.mem_cons] at ht
    rcases ht with ht | ht
    · rw [ht]
      exact fun addr => keepsValue h v addr hk.1
    · exact keepsValueElems h vs hk.2 t ht
end

theorem keepsSimple (h : Heap) : ∀ (k : TVal) (addr : Bool), k.identityKey = true → ∀ i r j,
    qualifyData h addr k i = (.ok r, j) → r.1.Simple
  | .iface acc v, addr, hk, i, r, j, hr => by
    rw [TVal.identityKey] at hk
    have ih := keepsSimple h v false hk
    have key : ((do
        let (v', c) ← qualifyData h false v
        pure (.iface acc v', c)) : IM (TVal × Bool)) i = (.ok r, j) → r.1.Simple := by
      intro hr
      obtain ⟨⟨v', c⟩, i1, h1, h2⟩ := IM.bind_eq_ok hr
      obtain ⟨rfl, -⟩ := pure_eq_ok h2
      have : v'.Simple := ih _ _ _ h1
      unfold TVal.Simple at this ⊢
      rw [TVal.valueKey, TVal.identityKey]
      exact this
    have conv : ∀ t, v.identityKey = true → qualifyConverted acc (.iface acc v) t i = (.ok r, j) → r.1.Simple := by
      intro t hk hr
      obtain ⟨t', i1, -, h2⟩ := IM.bind_eq_ok hr
      obtain ⟨⟨t', c⟩, i2, -, h2⟩ := IM.bind_eq_ok h2
      dsimp only at h2
      split at h2
      · obtain ⟨rfl, -⟩ := pure_eq_ok h2
        exact .inr rfl
      · obtain ⟨rfl, -⟩ := pure_eq_ok h2
        exact .inr hk
    have obj : ∀ o, v.identityKey = true → qualifyObject acc (.iface acc v) o i = (.ok r, j) → r.1.Simple := by
      intro o hk hr
      cases o <;> rw [qualifyObject] at hr <;> obtain ⟨s', i1, -, h2⟩ := IM.bind_eq_ok hr <;> split at h2 <;>
        obtain ⟨rfl, -⟩ := pure_eq_ok h2
      · exact .inl rfl
      · exact .inr hk
      · exact .inr rfl
      · exact .inr hk
    cases v <;> simp only [TVal.identityKey, Bool.false_eq_true] at hk
    case iface =>
      rw [qualifyData] at hr
      · exact key hr
      all_goals (intros; contradiction)
    case ptr =>
      rw [qualifyData] at hr
      · exact key hr
      all_goals (intros; contradiction)
    case typeName | reflectType | goType =>
      rw [qualifyData] at hr
      exact conv _ rfl hr
    case goObject =>
      rw [qualifyData] at hr
      obtain ⟨o, i1, h1, h2⟩ := IM.bind_eq_ok hr
      have : i1 = i := by
        unfold IM.lift at h1
        simp only [Prod.mk.injEq] at h1
        exact h1.2.symm
      subst this
      exact obj _ rfl h2
    case goPackage =>
      rw [qualifyData] at hr
      obtain ⟨o, i1, h1, h2⟩ := IM.bind_eq_ok hr
      obtain ⟨o, i2, h1, h2⟩ := IM.bind_eq_ok h2
      split at h2
      · obtain ⟨rfl, -⟩ := pure_eq_ok h2
        exact .inl rfl
      · obtain ⟨rfl, -⟩ := pure_eq_ok h2
        exact .inr rfl
  | .ptr v, addr, hk, i, r, j, hr => by
    rw [qualifyData] at hr
    obtain ⟨o, i1, h1, h2⟩ := IM.bind_eq_ok hr
    obtain ⟨rfl, -⟩ := pure_eq_ok h2
    exact .inr rfl
  | .typeName _, addr, hk, i, r, j, hr | .reflectType _, addr, hk, i, r, j, hr | .goType _, addr, hk, i, r, j, hr
  | .goObject _, addr, hk, i, r, j, hr | .goPackage _, addr, hk, i, r, j, hr => by
    rw [qualifyData] at hr
    · obtain ⟨rfl, -⟩ := pure_eq_ok hr
      exact .inr rfl
    all_goals (intros; contradiction)
  | .struct _, _, hk, _, _, _, _ | .array _, _, hk, _, _, _, _ | .scalar _, _, hk, _, _, _, _
  | .package _, _, hk, _, _, _, _ | .symbol _, _, hk, _, _, _, _ | .mref _, _, hk, _, _, _, _
  | .embed _, _, hk, _, _, _, _ | .signature _, _, hk, _, _, _, _ | .spec _, _, hk, _, _, _, _
  | .specCopy _ _, _, hk, _, _, _, _ | .method _, _, hk, _, _, _, _ | .imports, _, hk, _, _, _, _
  | .slice _, _, hk, _, _, _, _ | .map _, _, hk, _, _, _, _ => by simp [TVal.identityKey] at hk

theorem TVal.not_value_of_identity : ∀ (k : TVal), k.identityKey = true → ¬ k.valueKey = true
  | .iface _ v, hk => by
    rw [TVal.identityKey] at hk
    rw [TVal.valueKey]
    exact not_value_of_identity v hk
  | .ptr _, _ | .typeName _, _ | .reflectType _, _ | .goType _, _ | .goObject _, _ | .goPackage _, _ => by
    simp [TVal.valueKey]
  | .struct _, hk | .array _, hk | .scalar _, hk | .package _, hk | .symbol _, hk | .mref _, hk
  | .embed _, hk | .signature _, hk | .spec _, hk | .specCopy _ _, hk | .method _, hk | .imports, hk
  | .slice _, hk | .map _, hk => by simp [TVal.identityKey] at hk

theorem keepsKey (h : Heap) {k : TVal} (hk : k.Simple) (addr : Bool) : KeepsKey (qualifyData h addr) k := by
  intro i r j hr
  rcases hk with hv | hi
  · have := keepsValue h k addr hv i r j hr
    exact ⟨fun _ => this, .inl this⟩
  · exact ⟨fun hv => absurd hv (k.not_value_of_identity hi), keepsSimple h k addr hi i r j hr⟩

/-! ## Structs, arrays, slices and maps as a whole -/

theorem MStep.join {W : Nat → Prop} {h h' : Part} {m m' : Mem} (st : MStep W h m h' m') {a : Nat} {c : Cell}
    (hc : m'.cells a = some c) (lt : a < m'.next) (out : h' a = none) (new : m.next ≤ a) :
    MStep W h m (h'.add a c) m' := by
  refine ⟨st.le.trans (Part.le_add _ out), st.after.join hc lt, st.next, ?_, st.same⟩
  intro p hp
  have : p ≠ a := Nat.ne_of_lt (Nat.lt_of_lt_of_le hp new)
  simp only [Part.add, if_neg this]
  exact st.old p hp

/-- New memory joins the part. -/
theorem Sim.grow {α β : Type} {W W' : Nat → Prop} {i : Imports} {h : Part} {m : Mem} {x : MM β} {y : IM α}
    {P Q : α → β → Part → Mem → Prop} (hx : Sim W x y i h m P) (hw : ∀ p < m.next, W p → W' p)
    (hPQ : ∀ a b h' m', MStep W' h m h' m' → P a b h' m' → ∃ h'', MStep W' h m h'' m' ∧ Q a b h'' m') :
    Sim W' x y i h m Q := by
  unfold Sim at hx ⊢
  rcases hy : y i with ⟨a | _ | _, i'⟩
  · rw [hy] at hx
    obtain ⟨b, h', m', e, s, p⟩ := hx
    obtain ⟨h'', s', q⟩ := hPQ _ _ _ _ (s.weaken hw) p
    exact ⟨b, h'', m', e, s', q⟩
  · rw [hy] at hx
    exact hx
  · rw [hy] at hx
    exact hx

theorem sim_parts {shape : Shape} {addr : Bool} {get : Nat → MM DVal} {q : DVal → MM DRes}
    {Q : TVal → IM (TVal × Bool)} {src : List DVal} (hf : shape.Fits src.length) {ts : List TVal}
    (hq : ∀ t ∈ ts, DataSim q Q t) {h : Part} {m : Mem} {i : Imports} (ha : At h m) (hg : Reads h get src)
    (hE : h.DataElems ts src) :
    Sim noAddr (partsLoop shape addr get q src.length src.length 0 none) (partsQ shape addr Q false 0 ts) i h m
      fun x o h' _ => ∃ Y, h'.DataElems x.1 Y ∧ Y.length = src.length ∧
        match o with
        | none => x.2 = false ∧ Y = src
        | some a => x.2 = true ∧ h' a = some (shape.cell Y) := by
  have sim := sim_partsLoop (addr := addr) hf ts hq [] [] src src none h m i ha hg rfl rfl rfl hE (fun _ => rfl)
    (fun a h => by cases h)
  refine sim.result.grow (fun p _ hp => by cases hp) ?_
  rintro x o h' m' st ⟨⟨Y, hY, ho⟩, j, hj⟩
  have hlen : Y.length = src.length := by
    rw [dataElems_length hY, partsQ_length _ _ _ hj, dataElems_length hE]
  cases o with
  | none => exact ⟨h', st, Y, hY, hlen, ho.2.1, ho.2.2⟩
  | some a =>
    obtain ⟨h1, h2, h3⟩ := ho
    have h3 : m.next ≤ a := by
      rcases h3 with h | h
      · cases h
      · exact h.2
    refine ⟨h'.add a (shape.cell Y), st.join h2.cell h2.lt h2.out h3, Y, hY.mono (Part.le_add _ h2.out), hlen, h1, ?_⟩
    simp [Part.add]

theorem sim_entries {q : DVal → MM DRes} {Q : TVal → IM (TVal × Bool)} {es : List (TVal × TVal)}
    (hnew : MakesNew q) (hq : ∀ e ∈ es, DataSim q Q e.1 ∧ DataSim q Q e.2 ∧ KeepsKey Q e.1 ∧ e.1.Simple)
    {l : List (DVal × DVal)} {h : Part} {m : Mem} {i : Imports} (ha : At h m) (hl : h.DataEntries es l)
    (hu : Unequal l) :
    Sim noAddr (entriesLoop q l [] none) (entriesQ Q es) i h m fun x o h' _ =>
      match o with
      | none => x.2 = false
      | some a => x.2 = true ∧ ∃ M, h' a = some (.map M) ∧ h'.DataEntries (setAll [] x.1) M ∧ Unequal M := by
  have sim := sim_entriesLoop hnew es hq l [] [] [] none h m i ha hl hu
    (fun _ => ⟨rfl, (fun e he => by cases he), by simp [Part.DataEntries], .nil, fun e he => by cases he⟩) (fun a h => by cases h)
  refine sim.grow (fun p _ hp => by cases hp) ?_
  rintro x o h' m' st ho
  cases o with
  | none => exact ⟨h', st, ho.2⟩
  | some a =>
    obtain ⟨h1, ⟨M, h2, h2', h2''⟩, h3⟩ := ho
    have h3 : m.next ≤ a := by
      rcases h3 with h | h
      · cases h
      · exact h.2
    refine ⟨h'.add a (.map M), st.join h2.cell h2.lt h2.out h3, by simpa using h1, M, ?_,
      h2'.mono (Part.le_add _ h2.out), h2''⟩
    simp [Part.add]

end Gopoet
