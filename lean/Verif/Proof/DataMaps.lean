import Verif.Proof.DataKeys
/-!
# Qualification of template data in memory: maps
-/

namespace Gopoet
open MM Imports

theorem Sim.result {α β : Type} {W : Nat → Prop} {i : Imports} {h : Part} {m : Mem} {x : MM β} {y : IM α}
    {P : α → β → Part → Mem → Prop} (hx : Sim W x y i h m P) :
    Sim W x y i h m fun a b h' m' => P a b h' m' ∧ ∃ j, y i = (.ok a, j) := by
  unfold Sim at hx ⊢
  rcases hy : y i with ⟨a | _ | _, i'⟩
  · rw [hy] at hx
    obtain ⟨b, h', m', e, s, p⟩ := hx
    exact ⟨b, h', m', e, s, p, _, rfl⟩
  · rw [hy] at hx
    exact hx
  · rw [hy] at hx
    exact hx

/-! ## Keys -/

mutual
theorem keyEq_data {h : Part} : ∀ (k k' : TVal) (d d' : DVal), k.valueKey = true → k'.valueKey = true →
    h.Data k d → h.Data k' d' → d.keyEq d' = k.keyEq k'
  | .iface _ k, k', d, d', hk, hk', hd, hd' => by
    cases d <;> simp only [Part.Data] at hd
    cases k' <;> simp only [TVal.valueKey, Bool.false_eq_true] at hk hk' <;>
      cases d' <;> simp only [Part.Data] at hd' <;>
      simp only [DVal.keyEq, TVal.keyEq]
    exact keyEq_data k _ _ _ hk hk' hd.2.2 hd'.2.2
  | .struct a, k', d, d', hk, hk', hd, hd' => by
    cases d <;> simp only [Part.Data] at hd
    cases k' <;> simp only [TVal.valueKey, Bool.false_eq_true] at hk hk' <;>
      cases d' <;> simp only [Part.Data] at hd' <;>
      simp only [DVal.keyEq, TVal.keyEq]
    exact keyEqFields_data a _ _ _ hk hk' hd hd'
  | .array a, k', d, d', hk, hk', hd, hd' => by
    cases d <;> simp only [Part.Data] at hd
    cases k' <;> simp only [TVal.valueKey, Bool.false_eq_true] at hk hk' <;>
      cases d' <;> simp only [Part.Data] at hd' <;>
      simp only [DVal.keyEq, TVal.keyEq]
    exact keyEqElems_data a _ _ _ hk hk' hd hd'
  | .scalar _, k', d, d', hk, hk', hd, hd' | .package _, k', d, d', hk, hk', hd, hd'
  | .symbol _, k', d, d', hk, hk', hd, hd' | .mref _, k', d, d', hk, hk', hd, hd'
  | .embed _, k', d, d', hk, hk', hd, hd' => by
    cases d <;> simp only [Part.Data] at hd
    cases k' <;> simp only [TVal.valueKey, Bool.false_eq_true] at hk' <;>
      cases d' <;> simp only [Part.Data] at hd' <;>
      simp only [DVal.keyEq, TVal.keyEq]; all_goals (subst hd hd'; rfl)
  | .ptr _, _, _, _, hk, _, _, _ | .signature _, _, _, _, hk, _, _, _ | .spec _, _, _, _, hk, _, _, _
  | .specCopy _ _, _, _, _, hk, _, _, _ | .method _, _, _, _, hk, _, _, _ | .imports, _, _, _, hk, _, _, _
  | .typeName _, _, _, _, hk, _, _, _ | .reflectType _, _, _, _, hk, _, _, _ | .goType _, _, _, _, hk, _, _, _
  | .goObject _, _, _, _, hk, _, _, _ | .goPackage _, _, _, _, hk, _, _, _ | .slice _, _, _, _, hk, _, _, _
  | .map _, _, _, _, hk, _, _, _ => by simp [TVal.valueKey] at hk
theorem keyEqFields_data {h : Part} : ∀ (k k' : List (Bool × TVal)) (d d' : List (Bool × DVal)),
    valueKeyFields k = true → valueKeyFields k' = true →
    h.DataFields k d → h.DataFields k' d' → keyEqFieldsM d d' = keyEqFields k k'
  | [], k', d, d', hk, hk', hd, hd' => by
    rcases d with _ | ⟨⟨_, _⟩, _⟩ <;> simp only [Part.DataFields] at hd
    rcases k' with _ | ⟨⟨_, _⟩, _⟩ <;> rcases d' with _ | ⟨⟨_, _⟩, _⟩ <;> simp only [Part.DataFields] at hd' <;>
      simp [keyEqFieldsM, keyEqFields]
  | (_, k) :: l, k', d, d', hk, hk', hd, hd' => by
    rcases d with _ | ⟨⟨_, _⟩, _⟩ <;> simp only [Part.DataFields] at hd
    rcases k' with _ | ⟨⟨_, _⟩, _⟩ <;> rcases d' with _ | ⟨⟨_, _⟩, _⟩ <;> simp only [Part.DataFields] at hd' <;>
      simp only [keyEqFieldsM, keyEqFields]
    simp only [valueKeyFields, Bool.and_eq_true] at hk hk'
    rw [keyEq_data k _ _ _ hk.1 hk'.1 hd.2.1 hd'.2.1, keyEqFields_data l _ _ _ hk.2 hk'.2 hd.2.2 hd'.2.2]
theorem keyEqElems_data {h : Part} : ∀ (k k' : List TVal) (d d' : List DVal),
    valueKeyElems k = true → valueKeyElems k' = true →
    h.DataElems k d → h.DataElems k' d' → keyEqElemsM d d' = keyEqElems k k'
  | [], k', d, d', hk, hk', hd, hd' => by
    rcases d with _ | ⟨_, _⟩ <;> simp only [Part.DataElems] at hd
    rcases k' with _ | ⟨_, _⟩ <;> rcases d' with _ | ⟨_, _⟩ <;> simp only [Part.DataElems] at hd' <;>
      simp [keyEqElemsM, keyEqElems]
  | k :: l, k', d, d', hk, hk', hd, hd' => by
    rcases d with _ | ⟨_, _⟩ <;> simp only [Part.DataElems] at hd
    rcases k' with _ | ⟨_, _⟩ <;> rcases d' with _ | ⟨_, _⟩ <;> simp only [Part.DataElems] at hd' <;>
      simp only [keyEqElemsM, keyEqElems]
    simp only [valueKeyElems, Bool.and_eq_true] at hk hk'
    rw [keyEq_data k _ _ _ hk.1 hk'.1 hd.1 hd'.1, keyEqElems_data l _ _ _ hk.2 hk'.2 hd.2 hd'.2]
end

theorem Apart.agrees {h : Part} {k k' : TVal} {d d' : DVal} (hd : h.Data k d) (hd' : h.Data k' d') (ha : Apart d d') :
    d.keyEq d' = k.keyEq k' := by
  rcases ha with he | ⟨hv, hv'⟩
  · cases hk : k.keyEq k'
    · exact he
    · rw [keyEq_tree k k' d d' hd hd' hk] at he
      cases he
  · rw [valueKey_data k d hd] at hv
    rw [valueKey_data k' d' hd'] at hv'
    exact keyEq_data k k' d d' hv hv' hd hd'

theorem setEntry_data {h : Part} {k v : TVal} {d w : DVal} (hd : h.Data k d)
    (hw : h.Data v w) : ∀ {S : List (TVal × TVal)} {M : List (DVal × DVal)}, (∀ e ∈ M, Apart e.1 d) → h.DataEntries S M →
      h.DataEntries (setMapIndex S k v) (setEntry M d w)
  | [], [], _, _ => by
    simp only [setMapIndex, setEntry, Part.DataEntries, and_true]
    exact ⟨hd, hw⟩
  | [], _ :: _, _, hh => by simp [Part.DataEntries] at hh
  | (_, _) :: _, [], _, hh => by simp [Part.DataEntries] at hh
  | (k1, v1) :: S, (d1, w1) :: M, hS, hh => by
    rw [Part.DataEntries] at hh
    rw [setMapIndex, setEntry]
    dsimp only
    rw [(hS (d1, w1) (by simp)).agrees hh.1 hd]
    split
    · rw [Part.DataEntries]
      exact ⟨hh.1, hw, hh.2.2⟩
    · rw [Part.DataEntries]
      exact ⟨hh.1, hh.2.1, setEntry_data hd hw (fun e he => hS e (by simp [he])) hh.2.2⟩

theorem setEntry_keys {d w : DVal} : ∀ {M : List (DVal × DVal)} {e : DVal × DVal}, e ∈ setEntry M d w →
    e.1 = d ∨ ∃ e' ∈ M, e'.1 = e.1
  | [], e, he => by
    simp only [setEntry, List.mem_singleton] at he
    exact .inl (by rw [he])
  | (d1, w1) :: M, e, he => by
    rw [setEntry] at he
    split at he
    · rcases List.mem_cons.1 he with rfl | he
      · exact .inr ⟨(d1, w1), by simp, rfl⟩
      · exact .inr ⟨e, by simp [he], rfl⟩
    · rcases List.mem_cons.1 he with rfl | he
      · exact .inr ⟨_, by simp, rfl⟩
      · rcases setEntry_keys he with h | ⟨e', h1, h2⟩
        · exact .inl h
        · exact .inr ⟨e', by simp [h1], h2⟩

theorem setEntry_unequal {d w : DVal} : ∀ {M : List (DVal × DVal)}, Unequal M → Unequal (setEntry M d w)
  | [], _ => by simp [setEntry, Unequal]
  | (d1, w1) :: M, h => by
    unfold Unequal at h ⊢
    rw [List.pairwise_cons] at h
    rw [setEntry]
    split
    · exact List.pairwise_cons.2 h
    · rename_i hne
      refine List.pairwise_cons.2 ⟨fun e he => ?_, setEntry_unequal h.2⟩
      rcases setEntry_keys he with h1 | ⟨e', h1, h2⟩
      · rw [h1]
        simpa using hne
      · rw [← h2]
        exact h.1 e' h1

/-! ## Building maps -/

/-- The map that is being built, outside of the part. -/
structure Mapping (h : Part) (m : Mem) (l : List (DVal × DVal)) (a : Nat) : Prop where
  cell : m.cells a = some (.map l)
  lt : a < m.next
  out : h a = none

theorem Mapping.step {h h' : Part} {m m' : Mem} {l : List (DVal × DVal)} {a : Nat} {W : Nat → Prop}
    (b : Mapping h m l a) (s : MStep W h m h' m') (hw : ¬W a) : Mapping h' m' l a :=
  ⟨(s.same _ b.lt hw).trans b.cell, Nat.lt_of_lt_of_le b.lt s.next, s.outside b.lt b.out⟩

theorem Mapping.put {h : Part} {m : Mem} {l l' : List (DVal × DVal)} {a : Nat}
    (b : Mapping h m l a) : Mapping h (m.put a (.map l')) l' a := ⟨by simp [Mem.put], b.lt, b.out⟩

theorem setMapIndexM_apply {h : Part} {m : Mem} {l : List (DVal × DVal)} {a : Nat} (b : Mapping h m l a)
    (k v : DVal) (i : Imports) : setMapIndexM a k v m i = (.ok (), m.put a (.map (setEntry l k v)), i) := by
  simp only [setMapIndexM, MM.bind_apply, load, b.cell]
  rfl

theorem copyEntries_apply {h : Part} {a : Nat} (i : Imports) : ∀ (seen : List (DVal × DVal)) (m : Mem)
    (l : List (DVal × DVal)), At h m → Mapping h m l a → ∃ m', copyEntries a seen m i = (.ok (), m', i) ∧
      MStep (fun p => a = p) h m h m' ∧ Mapping h m' (seen.foldl (fun l e => setEntry l e.1 e.2) l) a
  | [], m, l, ha, mp => ⟨m, rfl, .refl ha, mp⟩
  | (k, v) :: seen, m, l, ha, mp => by
    have st : MStep (fun p => a = p) h m h (m.put a (.map (setEntry l k v))) := ha.put _ mp.out fun _ => rfl
    obtain ⟨m', e, s, mp'⟩ := copyEntries_apply i seen _ _ st.after (mp.put (l' := setEntry l k v))
    exact ⟨m', by rw [copyEntries, MM.bind_apply, setMapIndexM_apply mp]; exact e, st.trans s, mp'⟩

/-- The map with more entries. -/
abbrev setAll (T S : List (TVal × TVal)) : List (TVal × TVal) := S.foldl (fun m e => setMapIndex m e.1 e.2) T

theorem setAll_data {h : Part} : ∀ {S : List (TVal × TVal)} {l : List (DVal × DVal)} {T : List (TVal × TVal)}
    {M : List (DVal × DVal)}, Unequal l → (∀ e ∈ M, ∀ e' ∈ l, e.1.keyEq e'.1 = false) → Unequal M →
      h.DataEntries S l → h.DataEntries T M →
      h.DataEntries (setAll T S) (l.foldl (fun l e => setEntry l e.1 e.2) M) ∧
        Unequal (l.foldl (fun l e => setEntry l e.1 e.2) M) ∧
        ∀ e ∈ l.foldl (fun l e => setEntry l e.1 e.2) M, ∃ e' ∈ M ++ l, e'.1 = e.1
  | [], [], _, M, _, _, hu, _, hM => ⟨hM, hu, fun e he => ⟨e, by simpa using he, rfl⟩⟩
  | [], _ :: _, _, _, _, _, _, hh, _ => by simp [Part.DataEntries] at hh
  | (_, _) :: _, [], _, _, _, _, _, hh, _ => by simp [Part.DataEntries] at hh
  | (k, v) :: S, (d, w) :: l, T, M, hl, hMl, hu, hh, hM => by
    rw [Part.DataEntries] at hh
    have hl' := List.pairwise_cons.1 hl
    obtain ⟨h1, h2, h3⟩ := setAll_data (S := S) (l := l) (T := setMapIndex T k v) (M := setEntry M d w) hl'.2
      (fun e he e' he' => by
        rcases setEntry_keys he with h | ⟨e'', h1, h2⟩
        · rw [h]
          exact hl'.1 e' he'
        · rw [← h2]
          exact hMl e'' h1 e' (by simp [he']))
      (setEntry_unequal hu) hh.2.2
      (setEntry_data hh.1 hh.2.1 (fun e he => .inl (hMl e he (d, w) (by simp))) hM)
    refine ⟨h1, h2, fun e he => ?_⟩
    obtain ⟨e', he', e1⟩ := h3 e he
    rcases List.mem_append.1 he' with he' | he'
    · rcases setEntry_keys he' with h | ⟨e'', h1, h2⟩
      · exact ⟨(d, w), by simp, h.symm.trans e1⟩
      · exact ⟨e'', by simp [h1], h2.trans e1⟩
    · exact ⟨e', by simp [he'], e1⟩

theorem dataEntries_append {h : Part} {k v : TVal} {d w : DVal} (hd : h.Data k d) (hw : h.Data v w) :
    ∀ {S : List (TVal × TVal)} {l : List (DVal × DVal)}, h.DataEntries S l →
      h.DataEntries (S ++ [(k, v)]) (l ++ [(d, w)])
  | [], [], _ => by simp [Part.DataEntries, hd, hw]
  | [], _ :: _, hh => by simp [Part.DataEntries] at hh
  | (_, _) :: _, [], hh => by simp [Part.DataEntries] at hh
  | (k1, v1) :: S, (d1, w1) :: l, hh => by
    rw [Part.DataEntries] at hh
    simp only [List.cons_append, Part.DataEntries]
    exact ⟨hh.1, hh.2.1, dataEntries_append hd hw hh.2.2⟩

/-- The loop on trees. -/
def entriesQ (Q : TVal → IM (TVal × Bool)) : List (TVal × TVal) → IM (List (TVal × TVal) × Bool)
  | [] => pure ([], false)
  | (k, v) :: es => do
    let x ← Q k
    let y ← Q v
    if (x.2 && k.ifacePtr) || (y.2 && v.ifacePtr) then IM.panic
    else do
      let xs ← entriesQ Q es
      pure ((x.1, y.1) :: xs.1, x.2 || y.2 || xs.2)

/-- Qualification of a key gives a key. -/
def KeepsKey (Q : TVal → IM (TVal × Bool)) (k : TVal) : Prop :=
  ∀ i r j, Q k i = (.ok r, j) → (k.valueKey = true → r.1.valueKey = true) ∧ r.1.Simple

/-- What is changed is new. -/
def MakesNew (q : DVal → MM DRes) : Prop := ∀ b d, Framed b (q d) (NewRes b d)

theorem Sim.resultM {α β : Type} {W : Nat → Prop} {i : Imports} {h : Part} {m : Mem} {x : MM β} {y : IM α}
    {P : α → β → Part → Mem → Prop} {R : β → Prop} (hx : Sim W x y i h m P) (hf : Framed m.next x R) :
    Sim W x y i h m fun a b h' m' => P a b h' m' ∧ R b := by
  unfold Sim at hx ⊢
  rcases hy : y i with ⟨a | _ | _, i'⟩
  · rw [hy] at hx
    obtain ⟨b, h', m', e, s, p⟩ := hx
    exact ⟨b, h', m', e, s, p, (hf m i (Nat.le_refl _)).2 b (by rw [e])⟩
  · rw [hy] at hx
    exact hx
  · rw [hy] at hx
    exact hx

theorem dataEntries_mem {h : Part} : ∀ {S : List (TVal × TVal)} {l : List (DVal × DVal)}, h.DataEntries S l →
    ∀ e ∈ l, ∃ e' ∈ S, h.Data e'.1 e.1
  | [], [], _, e, he => by cases he
  | [], _ :: _, hh, _, _ => by simp [Part.DataEntries] at hh
  | (_, _) :: _, [], hh, _, _ => by simp [Part.DataEntries] at hh
  | (k, v) :: S, (d, w) :: l, hh, e, he => by
    rw [Part.DataEntries] at hh
    rcases List.mem_cons.1 he with rfl | he
    · exact ⟨(k, v), by simp, hh.1⟩
    · obtain ⟨e', h1, h2⟩ := dataEntries_mem hh.2.2 e he
      exact ⟨e', by simp [h1], h2⟩

theorem sim_entriesLoop {q : DVal → MM DRes} {Q : TVal → IM (TVal × Bool)} (hnew : MakesNew q) :
    ∀ (es : List (TVal × TVal)), (∀ e ∈ es, DataSim q Q e.1 ∧ DataSim q Q e.2 ∧ KeepsKey Q e.1 ∧ e.1.Simple) →
      ∀ (l : List (DVal × DVal)) (S T : List (TVal × TVal)) (seen : List (DVal × DVal)) (new : Option Nat)
        (h : Part) (m : Mem) (i : Imports), At h m → h.DataEntries es l → Unequal l →
      (new = none → T = setAll [] S ∧ (∀ e ∈ seen, e.1.Simple) ∧ h.DataEntries S seen ∧ Unequal seen ∧
        ∀ e ∈ seen, ∀ e' ∈ l, e.1.keyEq e'.1 = false) →
      (∀ a, new = some a → ∃ M, Mapping h m M a ∧ h.DataEntries T M ∧ (∀ e ∈ M, e.1.Simple) ∧ Unequal M ∧
        ∀ e ∈ M, ∀ e' ∈ l, Apart e.1 e'.1) →
      Sim (fun p => new = some p) (entriesLoop q l seen new) (entriesQ Q es) i h m
        fun x o h' m' =>
          match o with
          | none => new = none ∧ x.2 = false
          | some a => (new.isSome = true ∨ x.2 = true) ∧
              (∃ M, Mapping h' m' M a ∧ h'.DataEntries (setAll T x.1) M ∧ Unequal M) ∧
              (new = some a ∨ new = none ∧ m.next ≤ a)
  | [], _, l, S, T, seen, new, h, m, i, ha, hl, hu, hn, hm => by
    cases l with
    | cons _ _ => simp [Part.DataEntries] at hl
    | nil =>
      refine .pure ha ?_
      cases new with
      | none => exact ⟨rfl, rfl⟩
      | some a =>
        obtain ⟨M, h1, h2, -, h3, -⟩ := hm a rfl
        exact ⟨.inl rfl, ⟨M, h1, h2, h3⟩, .inl rfl⟩
  | (k, v) :: es, hq, l, S, T, seen, new, h, m, i, ha, hl, hu, hn, hm => by
    rcases l with _ | ⟨⟨d, w⟩, l⟩
    · simp [Part.DataEntries] at hl
    rw [Part.DataEntries] at hl
    obtain ⟨hd, hw, hl⟩ := hl
    obtain ⟨hqk, hqv, hkk, hks⟩ := hq (k, v) (by simp)
    dsimp only at hqk hqv hkk hks
    have hu' := List.pairwise_cons.1 hu
    have hul : Unequal l := hu'.2
    have hud : ∀ e ∈ l, d.keyEq e.1 = false := hu'.1
    rw [entriesQ, entriesLoop]
    refine ((((hqk d h m i ha hd).result).resultM (hnew m.next d)).steps fun p _ hp => hp.elim).bind ?_
    rintro ⟨k', ck⟩ rk h1 m1 i1 - ⟨s1, ⟨pk, j, hj⟩, rn⟩
    have hk' : (k.valueKey = true → k'.valueKey = true) ∧ k'.Simple := hkk _ _ _ hj
    refine ((hqv w h1 m1 i1 s1.after (hw.mono s1.le)).steps fun p _ hp => hp.elim).bind ?_
    rintro ⟨v', cv⟩ rv h2 m2 i2 - ⟨s2, pv⟩
    have s12 : MStep noAddr h m h2 m2 := s1.trans s2
    dsimp only
    have hdk : h2.Data k' rk.val := pk.data.mono s2.le
    have hdv : h2.Data v' rv.val := pv.data
    have hrk : rk.retyped = (ck && k.ifacePtr) := pk.retyped
    have hrv : rv.retyped = (cv && v.ifacePtr) := pv.retyped
    have hl2 : h2.DataEntries es l := hl.mono s12.le
    have hq' : ∀ e ∈ es, DataSim q Q e.1 ∧ DataSim q Q e.2 ∧ KeepsKey Q e.1 ∧ e.1.Simple :=
      fun e he => hq e (by simp [he])
    have hls : ∀ e ∈ l, e.1.Simple := fun e he => by
      obtain ⟨e', h1, h2⟩ := dataEntries_mem hl e he
      exact (simple_data h2).2 (hq' e' h1).2.2.2
    have hsk : rk.val.Simple := (simple_data hdk).2 hk'.2
    have hds : d.Simple := (simple_data hd).2 hks
    -- a changed key is apart from all old ones
    have apart : rk.changed = true → ∀ (x : TVal) (y : DVal), h.Data x y → y.Simple →
        Apart y rk.val ∧ Apart rk.val y := by
      intro hc x y hy hys
      refine apart_new_old ha hy hys hsk fun hid => ?_
      rcases hds with hv | hi
      · rw [valueKey_data k d hd] at hv
        have h1 := hk'.1 hv
        rw [← valueKey_data k' _ hdk] at h1
        exact absurd hid (not_identity_of_value _ h1)
      · exact rn.val hi hc
    have same : rk.changed = false → rk.val = d := fun hc => pk.same (pk.changed.symm.trans hc)
    have toOld : ∀ e ∈ l, Apart rk.val e.1 := by
      intro e he
      cases hc : rk.changed with
      | false =>
        rw [same hc]
        exact .inl (hud e he)
      | true =>
        obtain ⟨e', -, h2⟩ := dataEntries_mem hl e he
        exact (apart hc _ _ h2 (hls e he)).2
    have key : ∀ (a : Nat) (m3 : Mem) (M : List (DVal × DVal)) (seen : List (DVal × DVal)), At h2 m3 →
        Mapping h2 m3 M a → h2.DataEntries T M → (∀ e ∈ M, e.1.Simple) → Unequal M →
        (∀ e ∈ M, ∀ e' ∈ l, Apart e.1 e'.1) → (∀ e ∈ M, Apart e.1 rk.val) →
        Sim (fun p => a = p) (setMapRes a rk rv >>= fun _ => entriesLoop q l seen (some a))
          (if (ck && k.ifacePtr || cv && v.ifacePtr) = true then IM.panic
            else entriesQ Q es >>= fun xs => pure ((k', v') :: xs.1, ck || cv || xs.2)) i2 h2 m3
          fun x o h' m' => o = some a ∧ (x.2 = true ∨ (ck || cv) = false) ∧
            ∃ M, Mapping h' m' M a ∧ h'.DataEntries (setAll T x.1) M ∧ Unequal M := by
      intro a m3 M seen a3 mp hM hMs hMu hMl hMk
      by_cases hbad : (ck && k.ifacePtr || cv && v.ifacePtr) = true
      · rw [if_pos hbad]
        refine ⟨m3, ?_⟩
        rw [MM.bind_apply]
        unfold setMapRes
        rw [hrk, hrv, if_pos hbad]
        rfl
      · rw [if_neg hbad]
        have st : MStep (fun p => a = p) h2 m3 h2 (m3.put a (.map (setEntry M rk.val rv.val))) :=
          a3.put _ mp.out fun _ => rfl
        refine .left (m' := m3.put a (.map (setEntry M rk.val rv.val))) (b := ()) ?_ st ?_
        · unfold setMapRes
          rw [hrk, hrv, if_neg hbad]
          exact setMapIndexM_apply mp _ _ _
        have ih := sim_entriesLoop hnew es hq' l [] (setMapIndex T k' v') seen (some a) h2 _ i2 st.after hl2 hul
          (fun h => by cases h) (fun a' ha' => by
            cases ha'
            refine ⟨_, mp.put, setEntry_data hdk hdv hMk hM, fun e he => ?_, setEntry_unequal hMu, fun e he => ?_⟩
            · rcases setEntry_keys he with h | ⟨e', h1, h2⟩
              · rw [h]
                exact hsk
              · rw [← h2]
                exact hMs e' h1
            · rcases setEntry_keys he with h | ⟨e', h1, h2⟩
              · rw [h]
                exact toOld
              · rw [← h2]
                exact hMl e' h1)
        refine (ih.steps (W' := fun p => a = p) ?_).right ?_
        · rintro p - h
          exact Option.some.inj h
        rintro ⟨ys, cs⟩ o h3 m4 s3 ⟨-, ho⟩
        cases o with
        | none => cases ho.1
        | some a' =>
          obtain ⟨g1, g2, g3⟩ := ho
          have : a' = a := by
            rcases g3 with h | h
            · exact (Option.some.inj h).symm
            · cases h.1
          subst this
          refine ⟨rfl, ?_, g2⟩
          cases hc : (ck || cv)
          · exact .inr rfl
          · exact .inl (by simp)
    cases new with
    | some a =>
      obtain ⟨M, mp, hM, hMs, hMu, hMl⟩ := hm a rfl
      have hMk : ∀ e ∈ M, Apart e.1 rk.val := by
        intro e he
        cases hc : rk.changed with
        | false =>
          rw [same hc]
          exact hMl e he (d, w) (by simp)
        | true =>
          obtain ⟨e', -, h2⟩ := dataEntries_mem hM e he
          exact (apart hc _ _ h2 (hMs e he)).1
      refine (key a m2 M seen s2.after (mp.step s12 id) (hM.mono s12.le) hMs hMu
        (fun e he e' he' => hMl e he e' (by simp [he'])) hMk).mono (fun p _ hp => by rw [hp]) ?_
      rintro x o h' m' - ⟨rfl, -, h3⟩
      exact ⟨.inl rfl, h3, .inl rfl⟩
    | none =>
      obtain ⟨rfl, hss, hseen, hsu, hsl⟩ := hn rfl
      rw [pk.changed, pv.changed]
      dsimp only
      by_cases hc : (ck || cv) = true
      · rw [if_pos hc]
        have sa : MStep (fun p => m2.next = p) h2 m2 h2 (m2.after (.map [])) := s2.after.alloc_private _
        have mp : Mapping h2 (m2.after (.map [])) [] m2.next :=
          ⟨by simp [Mem.after], Nat.lt_succ_self _, s2.after.free⟩
        obtain ⟨m3, e, s3, mp3⟩ := copyEntries_apply i2 seen _ _ sa.after mp
        obtain ⟨hset, hsetu, hsetk⟩ := setAll_data (T := []) (M := []) hsu (fun e he => by cases he)
          (by simp [Unequal]) (hseen.mono s12.le) (by simp [Part.DataEntries])
        have hkey : ∀ {R : DVal → Prop}, (∀ e ∈ seen, R e.1) →
            ∀ e ∈ seen.foldl (fun l e => setEntry l e.1 e.2) [], R e.1 := by
          intro R hR e he
          obtain ⟨e', h1, h2⟩ := hsetk e he
          rw [← h2]
          exact hR e' (by simpa using h1)
        have k1 := key m2.next m3 _ [] s3.after mp3 hset (hkey hss) hsetu
          (hkey (R := fun d => ∀ e' ∈ l, Apart d e'.1) fun e he e' he' => .inl (hsl e he e' (by simp [he'])))
          (hkey (R := fun y => Apart y rk.val) fun e he => by
            cases hc : rk.changed with
            | false =>
              rw [same hc]
              exact .inl (hsl e he (d, w) (by simp))
            | true =>
              obtain ⟨e', -, h2⟩ := dataEntries_mem hseen e he
              exact (apart hc _ _ h2 (hss e he)).1)
        refine Sim.mono (.left (alloc_apply _ _ _) sa (.left e s3 k1)) (fun p hp he => by omega) ?_
        rintro x o h' m' - ⟨rfl, g1, g2⟩
        refine ⟨.inr ?_, g2, .inr ⟨rfl, s12.next⟩⟩
        rcases g1 with h | h
        · exact h
        · rw [hc] at h
          cases h
      · rw [if_neg hc]
        simp only [Bool.or_eq_true, not_or, Bool.not_eq_true] at hc
        obtain ⟨rfl, rfl⟩ := hc
        simp only [Bool.false_and, Bool.or_self, Bool.false_eq_true, if_false, Bool.false_or]
        have ek : rk.val = d := pk.same rfl
        have ev : rv.val = w := pv.same rfl
        have ih := sim_entriesLoop hnew es hq' l (S ++ [(k', v')]) (setAll [] (S ++ [(k', v')])) (seen ++ [(d, w)]) none
          h2 m2 i2 s2.after hl2 hul (fun _ => ⟨rfl, by
            intro e he
            rcases List.mem_append.1 he with he | he
            · exact hss e he
            · simp only [List.mem_singleton] at he
              rw [he]
              exact hds, dataEntries_append (ek ▸ hdk) (ev ▸ hdv) (hseen.mono s12.le), by
            unfold Unequal
            rw [List.pairwise_append]
            refine ⟨hsu, by simp, fun e he e' he' => ?_⟩
            simp only [List.mem_singleton] at he'
            rw [he']
            exact hsl e he (d, w) (by simp), by
            intro e he e' he'
            rcases List.mem_append.1 he with he | he
            · exact hsl e he e' (by simp [he'])
            · simp only [List.mem_singleton] at he
              rw [he]
              exact hud e' he'⟩) (fun a h => by cases h)
        refine ih.right ?_
        rintro ⟨ys, cs⟩ o h3 m3 s3 ho
        cases o with
        | none => exact ⟨trivial, ho.2⟩
        | some a =>
          obtain ⟨g1, ⟨M, g2, g2', g4⟩, g3⟩ := ho
          refine ⟨g1, ⟨M, g2, ?_, g4⟩, g3.imp id fun h => ⟨trivial, Nat.le_trans s12.next h.2⟩⟩
          simpa [setAll, List.foldl_append] using g2'

end Gopoet
