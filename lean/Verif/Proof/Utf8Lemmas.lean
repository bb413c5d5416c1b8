import Verif.Model.Utf8
/-! Decoding inverts encoding. -/

namespace Gopoet

theorem uint8_ofNat_toNat {n : Nat} {b : UInt8} (h : n = b.toNat) : UInt8.ofNat n = b := by
  subst h; simp

theorem toNat_ofNat_lt {n : Nat} (h : n < 256) : (UInt8.ofNat n).toNat = n := by
  simp [UInt8.toNat_ofNat']; omega

theorem encodeScalar_ne_nil (r : Nat) : encodeScalar r ≠ [] := by
  unfold encodeScalar; repeat' split
  all_goals simp

theorem encodeScalar_length_pos (r : Nat) : 0 < (encodeScalar r).length :=
  List.length_pos_iff.2 (encodeScalar_ne_nil r)

/-- Decoding an encoded scalar value. -/
theorem decodeRune_encode {r : Nat} (h : isScalar r = true) (s : GoString) :
    decodeRune (encodeScalar r ++ s) = (r, (encodeScalar r).length) := by
  simp only [isScalar, Bool.or_eq_true, Bool.and_eq_true, decide_eq_true_eq] at h
  unfold encodeScalar
  split
  · rename_i h1
    simp only [List.cons_append, List.nil_append, decodeRune, toNat_ofNat_lt (by omega : r < 256)]
    simp [h1]
  split
  · rename_i h1 h2
    have e1 := toNat_ofNat_lt (by omega : 0xC0 + r / 64 < 256)
    have e2 := toNat_ofNat_lt (by omega : 0x80 + r % 64 < 256)
    simp only [List.cons_append, List.nil_append, decodeRune, isCont, e1, e2]
    rw [if_neg (by omega), if_neg (by omega), if_pos (by omega), if_pos (by simp; omega)]
    simp only [List.length_cons, List.length_nil, Prod.mk.injEq, and_true]
    omega
  split
  · rename_i h1 h2 h3
    have e1 := toNat_ofNat_lt (by omega : 0xE0 + r / 4096 < 256)
    have e2 := toNat_ofNat_lt (by omega : 0x80 + r / 64 % 64 < 256)
    have e3 := toNat_ofNat_lt (by omega : 0x80 + r % 64 < 256)
    simp only [List.cons_append, List.nil_append, decodeRune, isCont, e1, e2, e3]
    rw [if_neg (by omega), if_neg (by omega), if_neg (by omega), if_pos (by omega), if_pos]
    · simp only [List.length_cons, List.length_nil, Prod.mk.injEq, and_true]
      omega
    · simp only [Bool.and_eq_true, Bool.or_eq_true, decide_eq_true_eq, bne_iff_ne]
      omega
  · rename_i h1 h2 h3
    have e1 := toNat_ofNat_lt (by omega : 0xF0 + r / 262144 < 256)
    have e2 := toNat_ofNat_lt (by omega : 0x80 + r / 4096 % 64 < 256)
    have e3 := toNat_ofNat_lt (by omega : 0x80 + r / 64 % 64 < 256)
    have e4 := toNat_ofNat_lt (by omega : 0x80 + r % 64 < 256)
    simp only [List.cons_append, List.nil_append, decodeRune, isCont, e1, e2, e3, e4]
    rw [if_neg (by omega), if_neg (by omega), if_neg (by omega), if_neg (by omega),
      if_pos (by omega), if_pos]
    · simp only [List.length_cons, List.length_nil, Prod.mk.injEq, and_true]
      omega
    · simp only [Bool.and_eq_true, Bool.or_eq_true, decide_eq_true_eq, bne_iff_ne]
      omega

/-- A non-empty string either starts with the encoding of the decoded rune or is reported as an
error of width 1. -/
theorem decodeRune_spec (b : UInt8) (s : GoString) :
    decodeRune (b :: s) = (runeError, 1) ∨
    ∃ r t, isScalar r = true ∧ b :: s = encodeScalar r ++ t ∧
      decodeRune (b :: s) = (r, (encodeScalar r).length) := by
  have key : ∀ r t, isScalar r = true → b :: s = encodeScalar r ++ t →
      ∃ r t, isScalar r = true ∧ b :: s = encodeScalar r ++ t ∧
        decodeRune (b :: s) = (r, (encodeScalar r).length) := by
    intro r t hr ht
    exact ⟨r, t, hr, ht, by rw [ht]; exact decodeRune_encode hr t⟩
  have hb := b.toNat_lt
  simp only [decodeRune]
  split
  · right
    rename_i h1
    have := key b.toNat s (by simp [isScalar]; omega) (by simp [encodeScalar, h1])
    simpa [decodeRune, h1] using this
  rename_i h1
  split
  · exact .inl rfl
  rename_i h2
  split
  · rename_i h3
    split
    · rename_i b1 t
      split
      · rename_i hc
        right
        simp only [isCont, Bool.and_eq_true, decide_eq_true_eq] at hc
        have hr : isScalar ((b.toNat - 0xC0) * 64 + (b1.toNat - 0x80)) = true := by
          simp [isScalar]; omega
        refine ⟨_, t, hr, ?_, ?_⟩
        · rw [encodeScalar, if_neg (by omega), if_pos (by omega)]
          rw [uint8_ofNat_toNat (b := b) (by omega), uint8_ofNat_toNat (b := b1) (by omega)]
          rfl
        · rw [encodeScalar, if_neg (by omega), if_pos (by omega)]
          rfl
      · exact .inl rfl
    · exact .inl rfl
  rename_i h3
  split
  · rename_i h4
    split
    · rename_i b1 b2 t
      split
      · rename_i hc
        right
        simp only [isCont, Bool.and_eq_true, Bool.or_eq_true, decide_eq_true_eq, bne_iff_ne] at hc
        have hr : isScalar ((b.toNat - 0xE0) * 4096 + (b1.toNat - 0x80) * 64 + (b2.toNat - 0x80))
            = true := by
          simp only [isScalar, Bool.or_eq_true, Bool.and_eq_true, decide_eq_true_eq]; omega
        refine ⟨_, t, hr, ?_, ?_⟩
        · rw [encodeScalar, if_neg (by omega), if_neg (by omega), if_pos (by omega)]
          rw [uint8_ofNat_toNat (b := b) (by omega), uint8_ofNat_toNat (b := b1) (by omega),
            uint8_ofNat_toNat (b := b2) (by omega)]
          rfl
        · rw [encodeScalar, if_neg (by omega), if_neg (by omega), if_pos (by omega)]
          rfl
      · exact .inl rfl
    · exact .inl rfl
  rename_i h4
  split
  · rename_i h5
    split
    · rename_i b1 b2 b3 t
      split
      · rename_i hc
        right
        simp only [isCont, Bool.and_eq_true, Bool.or_eq_true, decide_eq_true_eq, bne_iff_ne] at hc
        have hr : isScalar ((b.toNat - 0xF0) * 262144 + (b1.toNat - 0x80) * 4096 +
            (b2.toNat - 0x80) * 64 + (b3.toNat - 0x80)) = true := by
          simp only [isScalar, Bool.or_eq_true, Bool.and_eq_true, decide_eq_true_eq]; omega
        refine ⟨_, t, hr, ?_, ?_⟩
        · rw [encodeScalar, if_neg (by omega), if_neg (by omega), if_neg (by omega)]
          rw [uint8_ofNat_toNat (b := b) (by omega), uint8_ofNat_toNat (b := b1) (by omega),
            uint8_ofNat_toNat (b := b2) (by omega), uint8_ofNat_toNat (b := b3) (by omega)]
          rfl
        · rw [encodeScalar, if_neg (by omega), if_neg (by omega), if_neg (by omega)]
          rfl
      · exact .inl rfl
    · exact .inl rfl
  · exact .inl rfl

/-- If no scalar value's encoding starts the string, decoding reports an error. -/
theorem decodeRune_error_iff (b : UInt8) (s : GoString) :
    decodeRune (b :: s) = (runeError, 1) ↔
      ¬ ∃ r t, isScalar r = true ∧ b :: s = encodeScalar r ++ t := by
  constructor
  · rintro h ⟨r, t, hr, ht⟩
    have := decodeRune_encode hr t
    rw [← ht, h] at this
    have h1 : runeError = r := congrArg Prod.fst this
    have h2 := congrArg Prod.snd this
    subst h1
    exact absurd h2 (by decide)
  · intro h
    rcases decodeRune_spec b s with h' | ⟨r, t, hr, ht, _⟩
    · exact h'
    · exact absurd ⟨r, t, hr, ht⟩ h

theorem encodeScalar_injective {r r' : Nat} (h : isScalar r = true) (h' : isScalar r' = true)
    {t t' : GoString} (he : encodeScalar r ++ t = encodeScalar r' ++ t') : r = r' ∧ t = t' := by
  have h1 := decodeRune_encode h t
  rw [he, decodeRune_encode h' t'] at h1
  have : r' = r := congrArg Prod.fst h1
  subst this
  exact ⟨rfl, List.append_cancel_left he⟩

theorem encodeScalar_ascii {r : Nat} (h : r < 0x80) : encodeScalar r = [UInt8.ofNat r] := by
  simp [encodeScalar, h]

/-- All bytes of a multi-byte encoding are at least 0x80. -/
theorem encodeScalar_high {r : Nat} (h : isScalar r = true) (h8 : 0x80 ≤ r) :
    ∀ b ∈ encodeScalar r, 0x80 ≤ b.toNat := by
  simp only [isScalar, Bool.or_eq_true, Bool.and_eq_true, decide_eq_true_eq] at h
  unfold encodeScalar
  rw [if_neg (by omega)]
  split
  · intro b hb
    simp only [List.mem_cons, List.not_mem_nil, or_false] at hb
    rcases hb with rfl | rfl <;> rw [toNat_ofNat_lt (by omega)] <;> omega
  split
  · intro b hb
    simp only [List.mem_cons, List.not_mem_nil, or_false] at hb
    rcases hb with rfl | rfl | rfl <;> rw [toNat_ofNat_lt (by omega)] <;> omega
  · intro b hb
    simp only [List.mem_cons, List.not_mem_nil, or_false] at hb
    rcases hb with rfl | rfl | rfl | rfl <;> rw [toNat_ofNat_lt (by omega)] <;> omega

theorem ValidUtf8.nil : ValidUtf8 [] := ⟨[], by simp, rfl⟩

theorem ValidUtf8.append {s t : GoString} (hs : ValidUtf8 s) (ht : ValidUtf8 t) :
    ValidUtf8 (s ++ t) := by
  obtain ⟨rs, h1, rfl⟩ := hs
  obtain ⟨rs', h1', rfl⟩ := ht
  refine ⟨rs ++ rs', ?_, by simp⟩
  intro r hr
  rcases List.mem_append.1 hr with h | h
  · exact h1 r h
  · exact h1' r h

theorem ValidUtf8.scalar {r : Nat} (h : isScalar r = true) : ValidUtf8 (encodeScalar r) :=
  ⟨[r], by simpa using h, by simp⟩

theorem ValidUtf8.ascii : ∀ {s : GoString}, (∀ b ∈ s, b.toNat < 0x80) → ValidUtf8 s
  | [], _ => .nil
  | b :: s, h => by
    have hb := h b (by simp)
    have h1 : ValidUtf8 [b] :=
      ⟨[b.toNat], by simp [isScalar]; omega, by simp [encodeScalar, hb]⟩
    exact ValidUtf8.append (s := [b]) h1 (ValidUtf8.ascii fun x hx => h x (by simp [hx]))

end Gopoet
