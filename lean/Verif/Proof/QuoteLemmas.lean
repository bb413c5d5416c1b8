import Verif.Model.Quote
import Verif.Spec.StringLit
import Verif.Proof.Utf8Lemmas
import Mathlib.Tactic.ByContra
/-! A quoted string is a string literal with the right value. -/

namespace Gopoet

theorem hexVal_lowerHex {n : Nat} (h : n < 16) : hexVal (lowerHex n) = some n := by
  have : ∀ n < 16, hexVal (lowerHex n) = some n := by decide
  exact this n h

theorem interp_plain {b : UInt8} (h1 : b ≠ 34) (h2 : b ≠ 92) (h3 : b ≠ 10) (rest : GoString) :
    interpretedBody (b :: rest)
      = (do let (v, r) ← interpretedBody rest; pure (b :: v, r)) := by
  rw [interpretedBody.eq_def]
  split <;> simp_all

theorem interp_plain_list : ∀ {w : GoString}, (∀ b ∈ w, b ≠ 34 ∧ b ≠ 92 ∧ b ≠ 10) →
    ∀ {rest v r}, interpretedBody rest = some (v, r) →
      interpretedBody (w ++ rest) = some (w ++ v, r)
  | [], _, _, _, _, h => h
  | b :: w, hw, rest, v, r, h => by
    obtain ⟨h1, h2, h3⟩ := hw b (by simp)
    rw [List.cons_append, interp_plain h1 h2 h3,
      interp_plain_list (fun x hx => hw x (by simp [hx])) h]
    rfl

theorem interp_hex2 {x y : Nat} (hx : x < 16) (hy : y < 16) {rest v r : GoString}
    (h : interpretedBody rest = some (v, r)) :
    interpretedBody (92 :: 120 :: lowerHex x :: lowerHex y :: rest)
      = some (UInt8.ofNat (x * 16 + y) :: v, r) := by
  rw [interpretedBody]
  simp [hexNum, hexVal_lowerHex hx, hexVal_lowerHex hy, h]

theorem interp_escapeRune {tbl : Nat → Bool} {c : Nat} (hc : isScalar c = true)
    {rest v r : GoString} (h : interpretedBody rest = some (v, r)) :
    interpretedBody (escapeRune tbl c ++ rest) = some (encodeScalar c ++ v, r) := by
  have hc' := hc
  simp only [isScalar, Bool.or_eq_true, Bool.and_eq_true, decide_eq_true_eq] at hc'
  rw [escapeRune]
  by_cases h1 : c = 34 ∨ c = 92
  · rw [if_pos h1]
    rcases h1 with rfl | rfl
    · simp only [List.cons_append, List.nil_append, encodeScalar]
      show interpretedBody (92 :: 34 :: rest) = _
      rw [interpretedBody, h]; rfl
    · simp only [List.cons_append, List.nil_append, encodeScalar]
      show interpretedBody (92 :: 92 :: rest) = _
      rw [interpretedBody, h]; rfl
  rw [if_neg h1]
  by_cases hp : isPrint tbl c = true
  · rw [if_pos hp]
    rw [encodeRune, if_pos hc]
    refine interp_plain_list ?_ h
    intro b hb
    by_cases h8 : c < 0x80
    · rw [encodeScalar_ascii h8] at hb
      simp only [List.mem_singleton] at hb
      subst hb
      have hge : 0x20 ≤ c := by
        simp only [isPrint] at hp
        rw [if_pos (by omega)] at hp
        simp only [Bool.or_eq_true, Bool.and_eq_true, decide_eq_true_eq] at hp
        omega
      have ht := toNat_ofNat_lt (by omega : c < 256)
      refine ⟨?_, ?_, ?_⟩
      · intro he; rw [he] at ht; simp at ht; omega
      · intro he; rw [he] at ht; simp at ht; omega
      · intro he; rw [he] at ht; simp at ht; omega
    · have := encodeScalar_high hc (by omega) b hb
      refine ⟨?_, ?_, ?_⟩ <;> rintro rfl <;> simp at this
  rw [if_neg hp]
  by_cases h2_7 : c = 7
  · rw [if_pos h2_7]; subst h2_7
    simp only [List.cons_append, List.nil_append]; rw [interpretedBody, h]; rfl
  rw [if_neg h2_7]
  by_cases h2_8 : c = 8
  · rw [if_pos h2_8]; subst h2_8
    simp only [List.cons_append, List.nil_append]; rw [interpretedBody, h]; rfl
  rw [if_neg h2_8]
  by_cases h2_12 : c = 12
  · rw [if_pos h2_12]; subst h2_12
    simp only [List.cons_append, List.nil_append]; rw [interpretedBody, h]; rfl
  rw [if_neg h2_12]
  by_cases h2_10 : c = 10
  · rw [if_pos h2_10]; subst h2_10
    simp only [List.cons_append, List.nil_append]; rw [interpretedBody, h]; rfl
  rw [if_neg h2_10]
  by_cases h2_13 : c = 13
  · rw [if_pos h2_13]; subst h2_13
    simp only [List.cons_append, List.nil_append]; rw [interpretedBody, h]; rfl
  rw [if_neg h2_13]
  by_cases h2_9 : c = 9
  · rw [if_pos h2_9]; subst h2_9
    simp only [List.cons_append, List.nil_append]; rw [interpretedBody, h]; rfl
  rw [if_neg h2_9]
  by_cases h2_11 : c = 11
  · rw [if_pos h2_11]; subst h2_11
    simp only [List.cons_append, List.nil_append]; rw [interpretedBody, h]; rfl
  rw [if_neg h2_11]
  by_cases h2 : c < 32 ∨ c = 0x7F
  · rw [if_pos h2]
    simp only [List.cons_append, List.nil_append]
    rw [interp_hex2 (by omega) (by omega) h, encodeScalar_ascii (by omega)]
    have : c / 16 * 16 + c % 16 = c := by omega
    rw [this]; rfl
  · rw [if_neg h2, if_pos hc]
    dsimp only
    by_cases h3 : c < 0x10000
    · rw [if_pos h3]
      simp only [List.cons_append, List.nil_append]
      rw [interpretedBody]
      have e : hexNum [lowerHex (c / 4096 % 16), lowerHex (c / 256 % 16), lowerHex (c / 16 % 16),
          lowerHex (c % 16)] = some c := by
        simp only [hexNum, List.foldl_cons, List.foldl_nil,
          hexVal_lowerHex (Nat.mod_lt _ (by decide : 16 > 0))]
        simp
        omega
      rw [e]
      simp [hc, h]
    · rw [if_neg h3]
      simp only [List.cons_append, List.nil_append]
      rw [interpretedBody]
      have e : hexNum [lowerHex (c / 268435456 % 16), lowerHex (c / 16777216 % 16),
          lowerHex (c / 1048576 % 16), lowerHex (c / 65536 % 16), lowerHex (c / 4096 % 16),
          lowerHex (c / 256 % 16), lowerHex (c / 16 % 16), lowerHex (c % 16)] = some c := by
        simp only [hexNum, List.foldl_cons, List.foldl_nil,
          hexVal_lowerHex (Nat.mod_lt _ (by decide : 16 > 0))]
        simp
        omega
      rw [e]
      simp [hc, h]

theorem drop_of_eq_append {s w t : GoString} (h : s = w ++ t) : s.drop w.length = t := by
  subst h; simp

theorem not_error_of_scalar {r : Nat} :
    ¬ ((encodeScalar r).length = 1 ∧ r = runeError) := by
  rintro ⟨h1, rfl⟩; exact absurd h1 (by decide)

theorem interp_quoteLoop (tbl : Nat → Bool) : ∀ (fuel : Nat) (s rest : GoString), s.length ≤ fuel →
    interpretedBody (quoteLoop tbl fuel s ++ 34 :: rest) = some (s, rest)
  | 0, [], rest, _ => by simp [quoteLoop, interpretedBody]
  | 0, _ :: _, _, h => by simp at h
  | _ + 1, [], rest, _ => by simp [quoteLoop, interpretedBody]
  | fuel + 1, b :: s, rest, h => by
    simp only [List.length_cons, Nat.add_le_add_iff_right] at h
    rw [quoteLoop]
    rcases decodeRune_spec b s with he | ⟨r, t, hr, ht, he⟩
    · rw [he]
      simp only [and_self, if_true, List.cons_append, List.nil_append]
      have hb := b.toNat_lt
      rw [interp_hex2 (by omega) (by omega) (interp_quoteLoop tbl fuel s rest h)]
      rw [uint8_ofNat_toNat (b := b) (by omega)]
    · rw [he]
      dsimp only
      rw [if_neg not_error_of_scalar, drop_of_eq_append ht, List.append_assoc]
      have hlen : t.length ≤ fuel := by
        have := congrArg List.length ht
        have hp := encodeScalar_length_pos r
        simp only [List.length_cons, List.length_append] at this
        omega
      rw [interp_escapeRune hr (interp_quoteLoop tbl fuel t rest hlen), ht]

theorem stringLit_quote (tbl : Nat → Bool) (s rest : GoString) :
    stringLit (quote tbl s ++ rest) = some (s, rest) := by
  have := interp_quoteLoop tbl s.length s rest (Nat.le_refl _)
  simp only [quote, List.cons_append, List.append_assoc, List.nil_append, stringLit]
  exact this

theorem raw_plain {b : UInt8} (h1 : b ≠ 96) (h2 : b ≠ 13) (rest : GoString) :
    rawBody (b :: rest) = (do let (v, r) ← rawBody rest; pure (b :: v, r)) := by
  rw [rawBody.eq_def]
  split <;> simp_all

theorem raw_plain_list : ∀ {w : GoString}, (∀ b ∈ w, b ≠ 96 ∧ b ≠ 13) →
    ∀ {rest v r}, rawBody rest = some (v, r) → rawBody (w ++ rest) = some (w ++ v, r)
  | [], _, _, _, _, h => h
  | b :: w, hw, rest, v, r, h => by
    obtain ⟨h1, h2⟩ := hw b (by simp)
    rw [List.cons_append, raw_plain h1 h2, raw_plain_list (fun x hx => hw x (by simp [hx])) h]
    rfl

theorem canBackquoteLoop_bytes : ∀ (fuel : Nat) (s : GoString), s.length ≤ fuel →
    canBackquoteLoop fuel s = true →
    (∀ b ∈ s, b ≠ 96 ∧ b ≠ 13 ∧ b ≠ 10) ∧
      ∃ rs : List Nat, (∀ r ∈ rs, isScalar r = true ∧ r ≠ 0 ∧ r ≠ 0xFEFF) ∧ s = rs.flatMap encodeScalar
  | _, [], _, _ => ⟨by simp, [], by simp, rfl⟩
  | 0, _ :: _, h, _ => by simp at h
  | fuel + 1, b :: s, h, hc => by
    simp only [List.length_cons, Nat.add_le_add_iff_right] at h
    rw [canBackquoteLoop] at hc
    rcases decodeRune_spec b s with he | ⟨r, t, hr, ht, he⟩
    · rw [he] at hc; simp at hc
    · rw [he] at hc
      dsimp only at hc
      have hlen : t.length ≤ fuel := by
        have := congrArg List.length ht
        have hp := encodeScalar_length_pos r
        simp only [List.length_cons, List.length_append] at this
        omega
      rw [drop_of_eq_append ht] at hc
      have hp := encodeScalar_length_pos r
      split at hc
      · rename_i hw
        split at hc
        · simp at hc
        · rename_i hf
          obtain ⟨h1, rs, h2, h3⟩ := canBackquoteLoop_bytes fuel t hlen hc
          have h80 : 0x80 ≤ r := by
            by_contra hlt
            rw [encodeScalar_ascii (by omega)] at hw; simp at hw
          rw [ht]
          refine ⟨?_, r :: rs, ?_, by simp [h3]⟩
          · intro x hx
            rcases List.mem_append.1 hx with hx | hx
            · have := encodeScalar_high hr h80 x hx
              refine ⟨?_, ?_, ?_⟩ <;> rintro rfl <;> simp at this
            · exact h1 x hx
          · intro x hx
            rcases List.mem_cons.1 hx with rfl | hx
            · exact ⟨hr, by omega, hf⟩
            · exact h2 x hx
      · rename_i hw
        split at hc
        · simp at hc
        split at hc
        · simp at hc
        · rename_i hbad
          have h80 : r < 0x80 := by
            by_contra hlt
            have : 2 ≤ (encodeScalar r).length := by
              unfold encodeScalar
              rw [if_neg (by omega)]
              repeat' split
              all_goals simp
            omega
          rw [encodeScalar_ascii h80] at ht
          simp only [List.cons_append, List.nil_append, List.cons.injEq] at ht
          obtain ⟨rfl, rfl⟩ := ht
          obtain ⟨h1, rs, h2, h3⟩ := canBackquoteLoop_bytes fuel s hlen hc
          have htn := toNat_ofNat_lt (by omega : r < 256)
          refine ⟨?_, r :: rs, ?_, by simp [encodeScalar_ascii h80, h3]⟩
          · intro x hx
            rcases List.mem_cons.1 hx with rfl | hx
            · refine ⟨?_, ?_, ?_⟩ <;> intro he <;> rw [he] at htn <;> simp at htn <;> omega
            · exact h1 x hx
          · intro x hx
            rcases List.mem_cons.1 hx with rfl | hx
            · exact ⟨hr, by omega, by omega⟩
            · exact h2 x hx

theorem stringLit_backquote {s : GoString} (h : canBackquote s = true) (rest : GoString) :
    stringLit (96 :: s ++ 96 :: rest) = some (s, rest) := by
  have hb := (canBackquoteLoop_bytes s.length s (Nat.le_refl _) h).1
  simp only [List.cons_append, stringLit]
  have := raw_plain_list (w := s) (fun b hb' => ⟨(hb b hb').1, (hb b hb').2.1⟩)
    (rest := 96 :: rest) (v := []) (r := rest) (by rw [rawBody])
  simpa using this

/-! ## The literals are legal source text -/

theorem SourceText.append {s t : GoString} (hs : SourceText s) (ht : SourceText t) :
    SourceText (s ++ t) := by
  obtain ⟨rs, h1, rfl⟩ := hs
  obtain ⟨rs', h1', rfl⟩ := ht
  refine ⟨rs ++ rs', ?_, by simp⟩
  intro r hr
  rcases List.mem_append.1 hr with h | h
  · exact h1 r h
  · exact h1' r h

theorem SourceText.nil : SourceText [] := ⟨[], by simp, rfl⟩

theorem SourceText.ascii : ∀ {s : GoString}, (∀ b ∈ s, 0 < b.toNat ∧ b.toNat < 0x80) → SourceText s
  | [], _ => .nil
  | b :: s, h => by
    obtain ⟨h0, hb⟩ := h b (by simp)
    have h1 : SourceText [b] :=
      ⟨[b.toNat], by simp [isScalar]; omega, by simp [encodeScalar, hb]⟩
    exact SourceText.append (s := [b]) h1 (SourceText.ascii fun x hx => h x (by simp [hx]))

theorem lowerHex_ascii {n : Nat} (h : n < 16) : 0 < (lowerHex n).toNat ∧ (lowerHex n).toNat < 0x80 := by
  have : ∀ n < 16, 0 < (lowerHex n).toNat ∧ (lowerHex n).toNat < 0x80 := by decide
  exact this n h

theorem sourceText_escapeRune {tbl : Nat → Bool} (htbl : tbl 0xFEFF = false) {c : Nat}
    (hc : isScalar c = true) : SourceText (escapeRune tbl c) := by
  have hm : ∀ n, 0 < (lowerHex (n % 16)).toNat ∧ (lowerHex (n % 16)).toNat < 0x80 :=
    fun n => lowerHex_ascii (Nat.mod_lt _ (by decide))
  rw [escapeRune]
  by_cases h1 : c = 34 ∨ c = 92
  · rw [if_pos h1]
    rcases h1 with rfl | rfl <;> exact SourceText.ascii (by decide)
  rw [if_neg h1]
  by_cases hp : isPrint tbl c = true
  · rw [if_pos hp]
    rw [encodeRune, if_pos hc]
    refine ⟨[c], ?_, by simp⟩
    simp only [List.mem_singleton, forall_eq]
    refine ⟨hc, ?_, ?_⟩
    · rintro rfl; simp [isPrint] at hp
    · rintro rfl; simp [isPrint, htbl] at hp
  rw [if_neg hp]
  by_cases h2_7 : c = 7
  · rw [if_pos h2_7]; exact SourceText.ascii (by decide)
  rw [if_neg h2_7]
  by_cases h2_8 : c = 8
  · rw [if_pos h2_8]; exact SourceText.ascii (by decide)
  rw [if_neg h2_8]
  by_cases h2_12 : c = 12
  · rw [if_pos h2_12]; exact SourceText.ascii (by decide)
  rw [if_neg h2_12]
  by_cases h2_10 : c = 10
  · rw [if_pos h2_10]; exact SourceText.ascii (by decide)
  rw [if_neg h2_10]
  by_cases h2_13 : c = 13
  · rw [if_pos h2_13]; exact SourceText.ascii (by decide)
  rw [if_neg h2_13]
  by_cases h2_9 : c = 9
  · rw [if_pos h2_9]; exact SourceText.ascii (by decide)
  rw [if_neg h2_9]
  by_cases h2_11 : c = 11
  · rw [if_pos h2_11]; exact SourceText.ascii (by decide)
  rw [if_neg h2_11]
  by_cases h2 : c < 32 ∨ c = 0x7F
  · rw [if_pos h2]
    refine SourceText.ascii ?_
    intro b hb
    simp only [List.mem_cons, List.not_mem_nil, or_false] at hb
    rcases hb with rfl | rfl | rfl | rfl
    · decide
    · decide
    · exact lowerHex_ascii (by omega)
    · exact hm _
  · rw [if_neg h2, if_pos hc]
    dsimp only
    by_cases h3 : c < 0x10000
    · rw [if_pos h3]
      refine SourceText.ascii ?_
      intro b hb
      simp only [List.mem_cons, List.not_mem_nil, or_false] at hb
      rcases hb with rfl | rfl | rfl | rfl | rfl | rfl <;> first | exact hm _ | decide
    · rw [if_neg h3]
      refine SourceText.ascii ?_
      intro b hb
      simp only [List.mem_cons, List.not_mem_nil, or_false] at hb
      rcases hb with rfl | rfl | rfl | rfl | rfl | rfl | rfl | rfl | rfl | rfl <;>
        first | exact hm _ | decide

theorem sourceText_quoteLoop {tbl : Nat → Bool} (htbl : tbl 0xFEFF = false) :
    ∀ (fuel : Nat) (s : GoString), SourceText (quoteLoop tbl fuel s)
  | 0, _ => by simp [quoteLoop, SourceText.nil]
  | _ + 1, [] => by simp [quoteLoop, SourceText.nil]
  | fuel + 1, b :: s => by
    rw [quoteLoop]
    rcases decodeRune_spec b s with he | ⟨r, t, hr, ht, he⟩
    · rw [he]
      simp only [and_self, if_true]
      refine SourceText.append (SourceText.ascii ?_) (sourceText_quoteLoop htbl fuel s)
      have hb := b.toNat_lt
      intro x hx
      simp only [List.mem_cons, List.not_mem_nil, or_false] at hx
      rcases hx with rfl | rfl | rfl | rfl
      · decide
      · decide
      · exact lowerHex_ascii (by omega)
      · exact lowerHex_ascii (by omega)
    · rw [he]
      dsimp only
      rw [if_neg not_error_of_scalar]
      exact SourceText.append (sourceText_escapeRune htbl hr) (sourceText_quoteLoop htbl fuel _)

theorem sourceText_quote {tbl : Nat → Bool} (htbl : tbl 0xFEFF = false) (s : GoString) :
    SourceText (quote tbl s) := by
  have h1 : SourceText [34] := SourceText.ascii (by decide)
  exact SourceText.append (SourceText.append (s := [34]) h1 (sourceText_quoteLoop htbl _ _)) h1

theorem sourceText_backquote {s : GoString} (h : canBackquote s = true) :
    SourceText (96 :: s ++ [96]) := by
  have h1 : SourceText [96] := SourceText.ascii (by decide)
  exact SourceText.append (SourceText.append (s := [96]) h1
    (canBackquoteLoop_bytes s.length s (Nat.le_refl _) h).2) h1

end Gopoet
