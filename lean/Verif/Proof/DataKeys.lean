import Verif.Proof.DataFresh
import Verif.Proof.DataLoop
/-!
# Keys of maps in template data
-/

namespace Gopoet
open MM Imports

/-! ## Equality of keys -/

mutual
theorem keyEq_iff : ∀ (d d' : DVal), d.keyEq d' = true ↔ d.SameKey d'
  | .iface _ v, d' => by
    cases d' <;> simp only [DVal.keyEq, Bool.false_eq_true, false_iff] <;> try (intro h; cases h)
    rw [keyEq_iff v _]
    exact ⟨.iface _ _, fun h => by cases h; assumption⟩
  | .struct fs, d' => by
    cases d' <;> simp only [DVal.keyEq, Bool.false_eq_true, false_iff] <;> try (intro h; cases h)
    rw [keyEqFields_iff fs _]
    exact ⟨fun h => .struct h.1 h.2, fun h => by cases h with | struct h1 h2 => exact ⟨h1, h2⟩⟩
  | .array vs, d' => by
    cases d' <;> simp only [DVal.keyEq, Bool.false_eq_true, false_iff] <;> try (intro h; cases h)
    rw [keyEqElems_iff vs _]
    exact ⟨fun h => .array h.1 h.2, fun h => by cases h with | array h1 h2 => exact ⟨h1, h2⟩⟩
  | .scalar _, d' | .package _, d' | .symbol _, d' | .mref _, d' | .embed _, d' | .typeName _, d' => by
    cases d' <;> simp only [DVal.keyEq, Bool.false_eq_true, false_iff, beq_iff_eq, decide_eq_true_eq] <;>
      try (intro h; cases h)
    exact ⟨fun h => by subst h; constructor, fun h => by cases h; rfl⟩
  | .reflectType _ _, d' | .goType _ _, d' | .goObject _ _, d' | .goPackage _ _, d' => by
    cases d' <;> simp only [DVal.keyEq, Bool.false_eq_true, false_iff, beq_iff_eq] <;> try (intro h; cases h)
    exact ⟨fun h => by subst h; constructor, fun h => by cases h; rfl⟩
  | .ptr _ _, d' => by
    cases d' <;> simp only [DVal.keyEq, Bool.false_eq_true, false_iff, Bool.and_eq_true, beq_iff_eq] <;>
      try (intro h; cases h)
    exact ⟨fun h => by obtain ⟨rfl, rfl⟩ := h; constructor, fun h => by cases h; exact ⟨rfl, rfl⟩⟩
  | .signature _, d' | .spec _, d' | .specCopy _ _, d' | .method _, d' | .imports, d' | .slice _, d' | .map _, d' => by
    cases d' <;> simp only [DVal.keyEq, Bool.false_eq_true, false_iff] <;> (intro h; cases h)
theorem keyEqFields_iff : ∀ (fs gs : List (Bool × DVal)), keyEqFieldsM fs gs = true ↔ fs.length = gs.length ∧
    ∀ (k : Nat) (x y : Bool × DVal), fs[k]? = some x → gs[k]? = some y → x.2.SameKey y.2
  | [], gs => by cases gs <;> simp [keyEqFieldsM]
  | (e, v) :: fs, gs => by
    rcases gs with _ | ⟨⟨e', w⟩, gs⟩
    · simp [keyEqFieldsM]
    · simp only [keyEqFieldsM, Bool.and_eq_true, keyEq_iff v w, keyEqFields_iff fs gs, List.length_cons,
        Nat.add_right_cancel_iff]
      constructor
      · rintro ⟨h1, h2, h3⟩
        refine ⟨h2, fun k x y hx hy => ?_⟩
        cases k with
        | zero =>
          simp only [List.getElem?_cons_zero, Option.some.injEq] at hx hy
          subst hx hy
          exact h1
        | succ k => exact h3 k x y (by simpa using hx) (by simpa using hy)
      · rintro ⟨h2, h3⟩
        exact ⟨h3 0 _ _ rfl rfl, h2, fun k x y hx hy => h3 (k + 1) x y (by simpa using hx) (by simpa using hy)⟩
theorem keyEqElems_iff : ∀ (vs ws : List DVal), keyEqElemsM vs ws = true ↔ vs.length = ws.length ∧
    ∀ (k : Nat) (v w : DVal), vs[k]? = some v → ws[k]? = some w → v.SameKey w
  | [], ws => by cases ws <;> simp [keyEqElemsM]
  | v :: vs, ws => by
    rcases ws with _ | ⟨w, ws⟩
    · simp [keyEqElemsM]
    · simp only [keyEqElemsM, Bool.and_eq_true, keyEq_iff v w, keyEqElems_iff vs ws, List.length_cons,
        Nat.add_right_cancel_iff]
      constructor
      · rintro ⟨h1, h2, h3⟩
        refine ⟨h2, fun k x y hx hy => ?_⟩
        cases k with
        | zero =>
          simp only [List.getElem?_cons_zero, Option.some.injEq] at hx hy
          subst hx hy
          exact h1
        | succ k => exact h3 k x y (by simpa using hx) (by simpa using hy)
      · rintro ⟨h2, h3⟩
        exact ⟨h3 0 _ _ rfl rfl, h2, fun k x y hx hy => h3 (k + 1) x y (by simpa using hx) (by simpa using hy)⟩
end

/-- Keys that differ, in terms of `keyEq`. -/
def Unequal (l : List (DVal × DVal)) : Prop := l.Pairwise fun e e' => e.1.keyEq e'.1 = false

theorem unequal_iff (l : List (DVal × DVal)) : Unequal l ↔ KeysDiffer l := by
  unfold Unequal KeysDiffer
  have : (fun e e' : DVal × DVal => e.1.keyEq e'.1 = false) = fun e e' => ¬ e.1.SameKey e'.1 := by
    funext e e'
    rw [← keyEq_iff, Bool.not_eq_true]
  rw [this]

/-! ## Keys that are values -/

mutual
/-- `TVal.valueKey` in memory. -/
def DVal.valueKey : DVal → Bool
  | .scalar _ | .package _ | .symbol _ | .mref _ | .embed _ => true
  | .iface _ v => v.valueKey
  | .struct fs => valueKeyFieldsM fs
  | .array vs => valueKeyElemsM vs
  | _ => false
/-- see `DVal.valueKey` -/
def valueKeyFieldsM : List (Bool × DVal) → Bool
  | [] => true
  | (_, v) :: fs => v.valueKey && valueKeyFieldsM fs
/-- see `DVal.valueKey` -/
def valueKeyElemsM : List DVal → Bool
  | [] => true
  | v :: vs => v.valueKey && valueKeyElemsM vs
end

mutual
theorem valueKey_data {h : Part} : ∀ (k : TVal) (d : DVal), h.Data k d → d.valueKey = k.valueKey
  | .iface _ k, d, hd => by
    cases d <;> simp only [Part.Data] at hd
    simp only [DVal.valueKey, TVal.valueKey]
    exact valueKey_data k _ hd.2.2
  | .struct a, d, hd => by
    cases d <;> simp only [Part.Data] at hd
    simp only [DVal.valueKey, TVal.valueKey]
    exact valueKeyFields_data a _ hd
  | .array a, d, hd => by
    cases d <;> simp only [Part.Data] at hd
    simp only [DVal.valueKey, TVal.valueKey]
    exact valueKeyElems_data a _ hd
  | .scalar _, d, hd | .package _, d, hd | .symbol _, d, hd | .mref _, d, hd | .embed _, d, hd
  | .ptr _, d, hd | .signature _, d, hd | .spec _, d, hd | .specCopy _ _, d, hd | .method _, d, hd
  | .imports, d, hd | .typeName _, d, hd | .reflectType _, d, hd | .goType _, d, hd
  | .goObject _, d, hd | .goPackage _, d, hd | .slice _, d, hd | .map _, d, hd => by
    cases d <;> simp only [Part.Data] at hd; simp only [DVal.valueKey, TVal.valueKey]
theorem valueKeyFields_data {h : Part} : ∀ (k : List (Bool × TVal)) (d : List (Bool × DVal)), h.DataFields k d →
    valueKeyFieldsM d = valueKeyFields k
  | [], d, hd => by
    rcases d with _ | ⟨⟨_, _⟩, _⟩ <;> simp only [Part.DataFields] at hd
    rfl
  | (_, k) :: l, d, hd => by
    rcases d with _ | ⟨⟨_, _⟩, _⟩ <;> simp only [Part.DataFields] at hd
    rw [valueKeyFieldsM, valueKeyFields, valueKey_data k _ hd.2.1, valueKeyFields_data l _ hd.2.2]
theorem valueKeyElems_data {h : Part} : ∀ (k : List TVal) (d : List DVal), h.DataElems k d →
    valueKeyElemsM d = valueKeyElems k
  | [], d, hd => by
    rcases d with _ | ⟨_, _⟩ <;> simp only [Part.DataElems] at hd
    rfl
  | k :: l, d, hd => by
    rcases d with _ | ⟨_, _⟩ <;> simp only [Part.DataElems] at hd
    rw [valueKeyElemsM, valueKeyElems, valueKey_data k _ hd.1, valueKeyElems_data l _ hd.2]
end

theorem byIdentity_data {h : Part} : ∀ (k : TVal) (d : DVal), h.Data k d → d.byIdentity = k.identityKey
  | .iface _ k, d, hd => by
    cases d <;> simp only [Part.Data] at hd
    simp only [DVal.byIdentity, TVal.identityKey]
    exact byIdentity_data k _ hd.2.2
  | .struct _, d, hd | .array _, d, hd
  | .scalar _, d, hd | .package _, d, hd | .symbol _, d, hd | .mref _, d, hd | .embed _, d, hd
  | .ptr _, d, hd | .signature _, d, hd | .spec _, d, hd | .specCopy _ _, d, hd | .method _, d, hd
  | .imports, d, hd | .typeName _, d, hd | .reflectType _, d, hd | .goType _, d, hd
  | .goObject _, d, hd | .goPackage _, d, hd | .slice _, d, hd | .map _, d, hd => by
    cases d <;> simp only [Part.Data] at hd; rfl

mutual
/-- Trees see no equality that is not there. -/
theorem keyEq_tree {h : Part} : ∀ (k k' : TVal) (d d' : DVal), h.Data k d → h.Data k' d' → k.keyEq k' = true →
    d.keyEq d' = true
  | .iface _ k, k', d, d', hd, hd', he => by
    cases k' <;> simp only [TVal.keyEq, Bool.false_eq_true] at he
    cases d <;> simp only [Part.Data] at hd
    cases d' <;> simp only [Part.Data] at hd'
    rw [DVal.keyEq]
    exact keyEq_tree k _ _ _ hd.2.2 hd'.2.2 he
  | .struct a, k', d, d', hd, hd', he => by
    cases k' <;> simp only [TVal.keyEq, Bool.false_eq_true] at he
    cases d <;> simp only [Part.Data] at hd
    cases d' <;> simp only [Part.Data] at hd'
    rw [DVal.keyEq]
    exact keyEqFields_tree a _ _ _ hd hd' he
  | .array a, k', d, d', hd, hd', he => by
    cases k' <;> simp only [TVal.keyEq, Bool.false_eq_true] at he
    cases d <;> simp only [Part.Data] at hd
    cases d' <;> simp only [Part.Data] at hd'
    rw [DVal.keyEq]
    exact keyEqElems_tree a _ _ _ hd hd' he
  | .scalar _, k', d, d', hd, hd', he | .package _, k', d, d', hd, hd', he
  | .symbol _, k', d, d', hd, hd', he | .mref _, k', d, d', hd, hd', he
  | .embed _, k', d, d', hd, hd', he => by
    cases k' <;> simp only [TVal.keyEq, Bool.false_eq_true] at he
    cases d <;> simp only [Part.Data] at hd
    cases d' <;> simp only [Part.Data] at hd'
    subst hd hd'
    rw [DVal.keyEq]
    exact he
  | .ptr _, k', _, _, _, _, he | .signature _, k', _, _, _, _, he | .spec _, k', _, _, _, _, he
  | .specCopy _ _, k', _, _, _, _, he | .method _, k', _, _, _, _, he | .imports, k', _, _, _, _, he
  | .typeName _, k', _, _, _, _, he | .reflectType _, k', _, _, _, _, he | .goType _, k', _, _, _, _, he
  | .goObject _, k', _, _, _, _, he | .goPackage _, k', _, _, _, _, he | .slice _, k', _, _, _, _, he
  | .map _, k', _, _, _, _, he => by
    cases k' <;> simp only [TVal.keyEq, Bool.false_eq_true] at he
theorem keyEqFields_tree {h : Part} : ∀ (k k' : List (Bool × TVal)) (d d' : List (Bool × DVal)),
    h.DataFields k d → h.DataFields k' d' → keyEqFields k k' = true → keyEqFieldsM d d' = true
  | [], k', d, d', hd, hd', he => by
    rcases k' with _ | ⟨⟨_, _⟩, _⟩ <;> simp only [keyEqFields, Bool.false_eq_true] at he
    rcases d with _ | ⟨⟨_, _⟩, _⟩ <;> simp only [Part.DataFields] at hd
    rcases d' with _ | ⟨⟨_, _⟩, _⟩ <;> simp only [Part.DataFields] at hd'
    rfl
  | (_, k) :: l, k', d, d', hd, hd', he => by
    rcases k' with _ | ⟨⟨_, _⟩, _⟩ <;> simp only [keyEqFields, Bool.false_eq_true, Bool.and_eq_true] at he
    rcases d with _ | ⟨⟨_, _⟩, _⟩ <;> simp only [Part.DataFields] at hd
    rcases d' with _ | ⟨⟨_, _⟩, _⟩ <;> simp only [Part.DataFields] at hd'
    rw [keyEqFieldsM, keyEq_tree k _ _ _ hd.2.1 hd'.2.1 he.1, keyEqFields_tree l _ _ _ hd.2.2 hd'.2.2 he.2]
    rfl
theorem keyEqElems_tree {h : Part} : ∀ (k k' : List TVal) (d d' : List DVal),
    h.DataElems k d → h.DataElems k' d' → keyEqElems k k' = true → keyEqElemsM d d' = true
  | [], k', d, d', hd, hd', he => by
    rcases k' with _ | ⟨_, _⟩ <;> simp only [keyEqElems, Bool.false_eq_true] at he
    rcases d with _ | ⟨_, _⟩ <;> simp only [Part.DataElems] at hd
    rcases d' with _ | ⟨_, _⟩ <;> simp only [Part.DataElems] at hd'
    rfl
  | k :: l, k', d, d', hd, hd', he => by
    rcases k' with _ | ⟨_, _⟩ <;> simp only [keyEqElems, Bool.false_eq_true, Bool.and_eq_true] at he
    rcases d with _ | ⟨_, _⟩ <;> simp only [Part.DataElems] at hd
    rcases d' with _ | ⟨_, _⟩ <;> simp only [Part.DataElems] at hd'
    rw [keyEqElemsM, keyEq_tree k _ _ _ hd.1 hd'.1 he.1, keyEqElems_tree l _ _ _ hd.2 hd'.2 he.2]
    rfl
end

/-! ## Old and new keys -/

/-- The key is a value, or a pointer or type. -/
def DVal.Simple (d : DVal) : Prop := d.valueKey = true ∨ d.byIdentity = true

/-- The key is a value, or a pointer or type. -/
def TVal.Simple (k : TVal) : Prop := k.valueKey = true ∨ k.identityKey = true

theorem simple_data {h : Part} {k : TVal} {d : DVal} (hd : h.Data k d) : d.Simple ↔ k.Simple := by
  unfold DVal.Simple TVal.Simple
  rw [valueKey_data k d hd, byIdentity_data k d hd]

theorem not_identity_of_value : ∀ (d : DVal), d.valueKey = true → ¬ d.byIdentity = true
  | .iface _ v, hv => by
    rw [DVal.valueKey] at hv
    rw [DVal.byIdentity]
    exact not_identity_of_value v hv
  | .struct _, _ | .array _, _ | .scalar _, _ | .package _, _ | .symbol _, _ | .mref _, _ | .embed _, _ => by
    simp [DVal.byIdentity]
  | .typeName _, hv | .reflectType _ _, hv | .goType _ _, hv | .goObject _ _, hv
  | .goPackage _ _, hv | .ptr _ _, hv | .signature _, hv | .spec _, hv
  | .specCopy _ _, hv | .method _, hv | .imports, hv | .slice _, hv | .map _, hv => by simp [DVal.valueKey] at hv

theorem keyEq_value_identity : ∀ (d d' : DVal), d.valueKey = true → d'.byIdentity = true → d.keyEq d' = false
  | .iface _ v, d', hv, hi => by
    cases d' <;> simp only [DVal.keyEq]
    exact keyEq_value_identity v _ (by simpa [DVal.valueKey] using hv) (by simpa [DVal.byIdentity] using hi)
  | .struct _, d', hv, hi | .array _, d', hv, hi
  | .scalar _, d', hv, hi | .package _, d', hv, hi | .symbol _, d', hv, hi | .mref _, d', hv, hi
  | .embed _, d', hv, hi => by
    cases d' <;> simp [DVal.byIdentity] at hi <;> simp only [DVal.keyEq]
  | .typeName _, d', hv, hi | .reflectType _ _, d', hv, hi | .goType _ _, d', hv, hi | .goObject _ _, d', hv, hi
  | .goPackage _ _, d', hv, hi | .ptr _ _, d', hv, hi | .signature _, d', hv, hi | .spec _, d', hv, hi
  | .specCopy _ _, d', hv, hi | .method _, d', hv, hi | .imports, d', hv, hi | .slice _, d', hv, hi
  | .map _, d', hv, hi => by simp [DVal.valueKey] at hv

theorem keyEq_identity_value : ∀ (d d' : DVal), d.byIdentity = true → d'.valueKey = true → d.keyEq d' = false
  | .iface _ v, d', hi, hv => by
    cases d' <;> simp only [DVal.keyEq]
    exact keyEq_identity_value v _ (by simpa [DVal.byIdentity] using hi) (by simpa [DVal.valueKey] using hv)
  | .typeName _, d', hi, hv | .reflectType _ _, d', hi, hv | .goType _ _, d', hi, hv | .goObject _ _, d', hi, hv
  | .goPackage _ _, d', hi, hv | .ptr _ _, d', hi, hv => by
    cases d' <;> simp [DVal.valueKey] at hv <;> simp only [DVal.keyEq]
  | .struct _, d', hi, hv | .array _, d', hi, hv
  | .scalar _, d', hi, hv | .package _, d', hi, hv | .symbol _, d', hi, hv | .mref _, d', hi, hv
  | .embed _, d', hi, hv | .signature _, d', hi, hv | .spec _, d', hi, hv
  | .specCopy _ _, d', hi, hv | .method _, d', hi, hv | .imports, d', hi, hv | .slice _, d', hi, hv
  | .map _, d', hi, hv => by simp [DVal.byIdentity] at hi

/-- A new pointer or type equals new ones only. -/
theorem new_same {b : Nat} : ∀ {d d' : DVal}, d.SameKey d' → d.byIdentity = true → (d.New b ↔ d'.New b)
  | .iface _ v, d', hs, hi => by
    cases hs with
    | iface _ _ hs =>
      simp only [DVal.New]
      exact new_same (d := v) hs (by simpa [DVal.byIdentity] using hi)
  | .typeName _, d', hs, hi | .reflectType _ _, d', hs, hi | .goType _ _, d', hs, hi | .goObject _ _, d', hs, hi
  | .goPackage _ _, d', hs, hi | .ptr _ _, d', hs, hi => by
    cases hs
    exact Iff.rfl
  | .struct _, d', _, hi | .array _, d', _, hi
  | .scalar _, d', _, hi | .package _, d', _, hi | .symbol _, d', _, hi | .mref _, d', _, hi
  | .embed _, d', _, hi | .signature _, d', _, hi | .spec _, d', _, hi
  | .specCopy _ _, d', _, hi | .method _, d', _, hi | .imports, d', _, hi | .slice _, d', _, hi
  | .map _, d', _, hi => by simp [DVal.byIdentity] at hi

theorem old_type {h : Part} {m : Mem} (ha : At h m) : ∀ (t : TypeName) (v : MType), h.Type t v → ¬ v.New m.next
  | .nil, v, ht | .basic _, v, ht => by
    cases v <;> simp only [Part.Type] at ht; exact id
  | .ptr t, v, ht | .slice t, v, ht => by
    cases v <;> simp only [Part.Type] at ht
    simp only [MType.New]
    exact old_type ha t _ ht
  | .array t _, v, ht | .chan t _, v, ht => by
    cases v <;> simp only [Part.Type] at ht
    simp only [MType.New]
    exact old_type ha t _ ht.2
  | .map t k, v, ht => by
    cases v <;> simp only [Part.Type] at ht
    rintro (h | h)
    · exact old_type ha t _ ht.1 h
    · exact old_type ha k _ ht.2 h
  | .named s, v, ht => by
    cases v <;> simp only [Part.Type] at ht
    have := ha.lt _ _ ht
    simp only [MType.New]
    omega
  | .func s, v, ht => by
    cases v <;> simp only [Part.Type] at ht
    obtain ⟨_, ht, _⟩ := ht
    have := ha.lt _ _ ht
    simp only [MType.New]
    omega
  | .struct s, v, ht => by
    cases v <;> simp only [Part.Type] at ht
    obtain ⟨_, _, ht, _⟩ := ht
    have := ha.lt _ _ ht
    simp only [MType.New]
    omega
  | .interface _ _, v, ht => by
    cases v <;> simp only [Part.Type] at ht
    obtain ⟨_, _, _, _, ht, _⟩ := ht
    have := ha.lt _ _ ht
    simp only [MType.New]
    omega

theorem old_data {h : Part} {m : Mem} (ha : At h m) : ∀ (k : TVal) (d : DVal), h.Data k d → d.byIdentity = true →
    ¬ d.New m.next
  | .iface _ k, d, hd, hi => by
    cases d <;> simp only [Part.Data] at hd
    simp only [DVal.New]
    exact old_data ha k _ hd.2.2 (by simpa [DVal.byIdentity] using hi)
  | .ptr _, d, hd, hi => by
    cases d <;> simp only [Part.Data] at hd
    rename_i a path
    obtain ⟨_, hd, _⟩ := hd
    unfold Part.dataAt at hd
    cases hc : h a with
    | none => simp [hc] at hd
    | some c =>
      have := ha.lt _ _ hc
      simp only [DVal.New]
      omega
  | .typeName t, d, hd, hi => by
    cases d <;> simp only [Part.Data] at hd
    exact old_type ha t _ hd
  | .reflectType _, d, hd, hi | .goType _, d, hd, hi | .goObject _, d, hd, hi | .goPackage _, d, hd, hi => by
    cases d <;> simp only [Part.Data] at hd
    exact id
  | .struct _, d, hd, hi | .array _, d, hd, hi
  | .scalar _, d, hd, hi | .package _, d, hd, hi | .symbol _, d, hd, hi | .mref _, d, hd, hi | .embed _, d, hd, hi
  | .signature _, d, hd, hi | .spec _, d, hd, hi | .specCopy _ _, d, hd, hi | .method _, d, hd, hi
  | .imports, d, hd, hi | .slice _, d, hd, hi | .map _, d, hd, hi => by
    cases d <;> simp only [Part.Data] at hd; simp [DVal.byIdentity] at hi

/-- If the keys are equal, then trees show it. -/
def Apart (d d' : DVal) : Prop := d.keyEq d' = false ∨ d.valueKey = true ∧ d'.valueKey = true

theorem apart_new_old {h : Part} {m : Mem} (ha : At h m) {k : TVal} {d d' : DVal} (hd : h.Data k d) (hs : d.Simple)
    (hs' : d'.Simple) (hn : d'.byIdentity = true → d'.New m.next) : Apart d d' ∧ Apart d' d := by
  rcases hs with hv | hi
  · rcases hs' with hv' | hi'
    · exact ⟨.inr ⟨hv, hv'⟩, .inr ⟨hv', hv⟩⟩
    · exact ⟨.inl (keyEq_value_identity _ _ hv hi'), .inl (keyEq_identity_value _ _ hi' hv)⟩
  · rcases hs' with hv' | hi'
    · exact ⟨.inl (keyEq_identity_value _ _ hi hv'), .inl (keyEq_value_identity _ _ hv' hi)⟩
    · have old := old_data ha k d hd hi
      refine ⟨.inl ?_, .inl ?_⟩ <;> rw [← Bool.not_eq_true, keyEq_iff] <;> intro hk
      · exact old ((new_same hk hi).2 (hn hi'))
      · exact old ((new_same hk hi').1 (hn hi'))

end Gopoet
