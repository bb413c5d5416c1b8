import Verif.Props.Imports
/-!
# Properties C15 and C16: accessors and constructors of TypeName
-/

namespace Gopoet

/-! ## C15 -/

/-- What every accessor of a type returns; the defaults are the documented results for types the
accessor does not apply to (types.go:64-113). -/
structure Accessors where
  kind : TypeKind
  symbol : Symbol := ⟨⟨[], []⟩, []⟩
  elem : TypeName := .nil
  key : TypeName := .nil
  len : Int := -1
  dir : ChanDir := 0
  basicKind : ReflectKind := .invalid
  signature : Option Signature := none
  fields : Option (List FieldType) := none
  methods : Option (List MethodType) := none
  embeds : Option (List Symbol) := none

/-- The accessors of `t` return exactly the given values. -/
def TypeName.Has (t : TypeName) (a : Accessors) : Prop :=
  t.kind = .ok a.kind ∧ t.symbol = .ok a.symbol ∧ t.elem = .ok a.elem ∧ t.key = .ok a.key ∧
  t.len = .ok a.len ∧ t.dir = .ok a.dir ∧ t.basicKind = .ok a.basicKind ∧
  t.signature = .ok a.signature ∧ t.fields = .ok a.fields ∧ t.methods = .ok a.methods ∧
  t.embeds = .ok a.embeds

/-- C15: every constructor gives a type whose accessors return the constructor's arguments and,
where they do not apply, their documented zero. -/
theorem C15_accessors :
    (∀ s, (namedType s).Has { kind := .named, symbol := s }) ∧
    (∀ k t, k ≠ .unsafePointer → basicType k = .ok t → t.Has { kind := .basic, basicKind := k }) ∧
    (∀ e t, pointerType e = .ok t → t.Has { kind := .ptr, elem := e }) ∧
    (∀ e t, sliceType e = .ok t → t.Has { kind := .slice, elem := e }) ∧
    (∀ e n t, arrayType e n = .ok t → t.Has { kind := .array, elem := e, len := n }) ∧
    (∀ k v t, mapType k v = .ok t → t.Has { kind := .map, elem := v, key := k }) ∧
    (∀ e d t, channelType e d = .ok t →
      t.Has { kind := .chan, elem := e, dir := if d = 0 then bothDir else d }) ∧
    (∀ sig t, funcTypeFromSig sig = .ok t → t.Has { kind := .func, signature := some sig }) ∧
    (∀ a r t, funcType a r = .ok t → t.Has { kind := .func, signature := some ⟨a, r, false⟩ }) ∧
    (∀ a r t, funcTypeVariadic a r = .ok t →
      t.Has { kind := .func, signature := some ⟨a, r, true⟩ }) ∧
    (∀ fs, (structType fs).Has { kind := .struct, fields := some fs }) ∧
    (∀ es ms, (interfaceType es ms).Has
      { kind := .interface, methods := some ms, embeds := some es }) := by
  have hfunc : ∀ sig t, funcTypeFromSig sig = .ok t → t = .func sig := by
    intro sig t h
    unfold funcTypeFromSig at h
    split at h
    · simp at h
    split at h
    · simp at h
    split at h
    · split at h
      · simp at h
      · split at h
        · simpa using h.symm
        · simp at h
    · simpa using h.symm
  refine ⟨?_, ?_, ?_, ?_, ?_, ?_, ?_, ?_, ?_, ?_, ?_, ?_⟩
  · intro s; simp [TypeName.Has, namedType, TypeName.kind, TypeName.symbol, TypeName.elem,
      TypeName.key, TypeName.len, TypeName.dir, TypeName.basicKind, TypeName.signature,
      TypeName.fields, TypeName.methods, TypeName.embeds]
  · intro k t hk h
    simp only [basicType, hk, if_false] at h
    split at h
    · simp only [Outcome.ok.injEq] at h; subst h
      exact ⟨rfl, rfl, rfl, rfl, rfl, rfl, rfl, rfl, rfl, rfl, rfl⟩
    · simp at h
  · intro e t h
    unfold pointerType at h
    split at h
    · simp at h
    · simp only [Outcome.ok.injEq] at h; subst h
      exact ⟨rfl, rfl, rfl, rfl, rfl, rfl, rfl, rfl, rfl, rfl, rfl⟩
  · intro e t h
    unfold sliceType at h
    split at h
    · simp at h
    · simp only [Outcome.ok.injEq] at h; subst h
      exact ⟨rfl, rfl, rfl, rfl, rfl, rfl, rfl, rfl, rfl, rfl, rfl⟩
  · intro e n t h
    unfold arrayType at h
    split at h
    · simp at h
    · simp only [Outcome.ok.injEq] at h; subst h
      exact ⟨rfl, rfl, rfl, rfl, rfl, rfl, rfl, rfl, rfl, rfl, rfl⟩
  · intro k v t h
    unfold mapType at h
    split at h
    · simp at h
    · simp only [Outcome.ok.injEq] at h; subst h
      exact ⟨rfl, rfl, rfl, rfl, rfl, rfl, rfl, rfl, rfl, rfl, rfl⟩
  · intro e d t h
    unfold channelType at h
    dsimp only at h
    generalize (if d = 0 then bothDir else d) = d' at h ⊢
    split at h
    · simp at h
    · simp only [Outcome.ok.injEq] at h; subst h
      exact ⟨rfl, rfl, rfl, rfl, rfl, rfl, rfl, rfl, rfl, rfl, rfl⟩
  · intro s t h; rw [hfunc s t h]
    exact ⟨rfl, rfl, rfl, rfl, rfl, rfl, rfl, rfl, rfl, rfl, rfl⟩
  · intro a r t h; rw [hfunc _ t h]
    exact ⟨rfl, rfl, rfl, rfl, rfl, rfl, rfl, rfl, rfl, rfl, rfl⟩
  · intro a r t h; rw [hfunc _ t h]
    exact ⟨rfl, rfl, rfl, rfl, rfl, rfl, rfl, rfl, rfl, rfl, rfl⟩
  · intro fs; exact ⟨rfl, rfl, rfl, rfl, rfl, rfl, rfl, rfl, rfl, rfl, rfl⟩
  · intro es ms; exact ⟨rfl, rfl, rfl, rfl, rfl, rfl, rfl, rfl, rfl, rfl, rfl⟩

/-- C15: the kind `UnsafePointer` is the exception: BasicType returns the named type
`unsafe.Pointer`. -/
theorem C15_unsafePointer : ∃ t, basicType .unsafePointer = .ok t ∧
    t.Has { kind := .named, symbol := ⟨⟨b! "unsafe", b! "unsafe"⟩, b! "Pointer"⟩ } :=
  ⟨_, rfl, rfl, rfl, rfl, rfl, rfl, rfl, rfl, rfl, rfl, rfl, rfl⟩

example : ∃ t, arrayType (.basic .int) 3 = .ok t := ⟨_, rfl⟩
example : ∃ t, channelType (.basic .int) 0 = .ok t := ⟨_, rfl⟩
example : ∃ t, funcTypeVariadic [⟨[], .slice (.basic .int)⟩] [] = .ok t := ⟨_, rfl⟩

/-! ## C16 -/

/-- C15: of the nil `TypeName`, which is no type, every accessor panics; of anything else none does. -/
theorem C15_nil (t : TypeName) :
    (t = .nil → t.kind = .panic ∧ t.symbol = .panic ∧ t.elem = .panic ∧ t.key = .panic ∧ t.len = .panic ∧ t.dir = .panic ∧
      t.basicKind = .panic ∧ t.signature = .panic ∧ t.fields = .panic ∧ t.methods = .panic ∧ t.embeds = .panic) ∧
    (t ≠ .nil → ∃ a, t.Has a) := by
  constructor
  · rintro rfl
    exact ⟨rfl, rfl, rfl, rfl, rfl, rfl, rfl, rfl, rfl, rfl, rfl⟩
  · intro h
    cases t with
    | nil => exact absurd rfl h
    | _ => exact ⟨⟨_, _, _, _, _, _, _, _, _, _, _⟩, rfl, rfl, rfl, rfl, rfl, rfl, rfl, rfl, rfl, rfl, rfl⟩

/-- C16: each constructor either returns or panics, and panics exactly on the documented invalid
inputs. (A direction is invalid if it has a bit other than RecvDir = 1 and SendDir = 2; for the
64-bit direction this is being greater than 3.) -/
theorem C16_panics_exactly :
    (∀ e, pointerType e = .panic ↔ e = .nil) ∧
    (∀ e, sliceType e = .panic ↔ e = .nil) ∧
    (∀ e n, arrayType e n = .panic ↔ e = .nil ∨ n < 0) ∧
    (∀ k v, mapType k v = .panic ↔ k = .nil ∨ v = .nil) ∧
    (∀ e d, channelType e d = .panic ↔ e = .nil ∨ 3 < d.toNat) ∧
    (∀ sig : Signature, funcTypeFromSig sig = .panic ↔
      (∃ a ∈ sig.args, a.type = .nil) ∨ (∃ a ∈ sig.results, a.type = .nil) ∨
      (sig.isVariadic = true ∧ ¬ ∃ front name e, sig.args = front ++ [⟨name, .slice e⟩])) ∧
    (∀ k, basicType k = .panic ↔ k ∈ [ReflectKind.invalid, .array, .chan, .func, .interface, .map,
      .ptr, .slice, .struct] ∨ ∃ n, k = .other n) := by
  have hnil : ∀ t : TypeName, t.isNil = true ↔ t = .nil := by
    intro t; cases t <;> simp [TypeName.isNil]
  refine ⟨?_, ?_, ?_, ?_, ?_, ?_, ?_⟩
  · intro e; unfold pointerType; rw [← hnil]; split <;> simp_all
  · intro e; unfold sliceType; rw [← hnil]; split <;> simp_all
  · intro e n; unfold arrayType; rw [← hnil]; split <;> simp_all
  · intro k v; unfold mapType; rw [← hnil, ← hnil]; split <;> simp_all
  · intro e d
    have hd : ∀ d : ChanDir, (d &&& ~~~bothDir ≠ 0) ↔ 3 < d.toNat := by
      intro d
      constructor
      · intro h
        rcases Nat.lt_or_ge 3 d.toNat with h3 | h3
        · exact h3
        · exfalso
          apply h
          have : d.toNat = 0 ∨ d.toNat = 1 ∨ d.toNat = 2 ∨ d.toNat = 3 := by omega
          rcases this with h | h | h | h
          · rw [show d = 0 from BitVec.eq_of_toNat_eq h]; decide
          · rw [show d = 1 from BitVec.eq_of_toNat_eq h]; decide
          · rw [show d = 2 from BitVec.eq_of_toNat_eq h]; decide
          · rw [show d = 3 from BitVec.eq_of_toNat_eq h]; decide
      · intro h hz
        by_cases h0 : d = 0
        · subst h0; simp at h
        · rcases chanDir_valid hz h0 with rfl | rfl | rfl <;> simp [recvDir, sendDir, bothDir] at h
    unfold channelType
    dsimp only
    rw [← hnil]
    by_cases h0 : d = 0
    · subst h0; simp
    · simp only [h0, if_false]
      rw [← hd]
      split <;> simp_all
  · intro sig
    unfold funcTypeFromSig
    have hany : ∀ l : List ArgType, l.any (·.type.isNil) = true ↔ ∃ a ∈ l, a.type = .nil := by
      intro l; simp [hnil]
    split
    · rename_i h; rw [hany] at h; simp [h]
    split
    · rename_i h; rw [hany] at h; simp [h]
    rename_i h1 h2
    rw [hany] at h1 h2
    simp only [h1, h2, false_or]
    by_cases hv : sig.isVariadic = true
    · simp only [hv, if_true, true_and]
      cases hl : sig.args.getLast? with
      | none =>
        rw [List.getLast?_eq_none_iff] at hl
        simp [hl]
      | some a =>
        obtain ⟨front, hf⟩ := List.getLast?_eq_some_iff.1 hl
        obtain ⟨n, t⟩ := a
        have : (∃ front name e, sig.args = front ++ [⟨name, .slice e⟩]) ↔ ∃ e, t = .slice e := by
          constructor
          · rintro ⟨front', name, e, h⟩
            rw [hf] at h
            have := List.append_inj_right' h (by simp)
            simp only [List.cons.injEq, ArgType.mk.injEq, and_true] at this
            exact ⟨e, this.2⟩
          · rintro ⟨e, rfl⟩; exact ⟨front, n, e, hf⟩
        rw [this]
        have h1' : t ≠ .nil := fun h => h1 ⟨⟨n, t⟩, by rw [hf]; simp, h⟩
        cases t <;> simp [TypeName.kind]
    · simp [hv]
  · intro k
    cases k <;> simp [basicType, ReflectKind.isBasic]

/-- C16: no constructor loops. -/
theorem C16_returns_or_panics :
    (∀ e, pointerType e ≠ .hang) ∧ (∀ e, sliceType e ≠ .hang) ∧ (∀ e n, arrayType e n ≠ .hang) ∧
    (∀ k v, mapType k v ≠ .hang) ∧ (∀ e d, channelType e d ≠ .hang) ∧
    (∀ s, funcTypeFromSig s ≠ .hang) ∧ (∀ k, basicType k ≠ .hang) := by
  refine ⟨pointerType_ne_hang, sliceType_ne_hang, arrayType_ne_hang, mapType_ne_hang,
    channelType_ne_hang, funcTypeFromSig_ne_hang, ?_⟩
  intro k; unfold basicType; split <;> [skip; split] <;> simp

example : channelType (.basic .int) 4 = .panic := rfl
example : channelType (.basic .int) 3 ≠ .panic := by simp [channelType, bothDir, TypeName.isNil]
example : funcTypeVariadic [⟨[], .basic .int⟩] [] = .panic := rfl

end Gopoet
